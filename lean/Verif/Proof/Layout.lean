import Verif.Spec.Layout
import Verif.Proof.Lines
/-!
# Proofs about what in the text of a running-config does not count
-/

namespace NcDiff.Running

theorem idle_same {t : Tables} {rec : List Str → List Item} {st : ParseState} {l : Str} (h : Idle l) : parseLine t rec st l = st := by
  have hc := parseLine_case t rec st l
  generalize parseLine t rec st l = st' at hc
  have hn : ∀ {p : Prop}, ¬ (Heading l ∨ Blank l) → ¬ Remark l → p := by
    intro p h1 h2
    rcases h with h | h | h
    · exact absurd (.inl h) h1
    · exact absurd (.inr h) h1
    · exact absurd h.1 h2
  cases hc with
  | skip => rfl
  | ends h1 _ hr =>
    rcases h with h | h | h
    · exact absurd (.inl h) h1
    · exact absurd (.inr h) h1
    · exact absurd hr h.2
  | remark => rfl
  | under h1 _ hm => exact hn h1 hm
  | block h1 _ hm => exact hn h1 hm
  | top h1 _ hm => exact hn h1 hm

theorem silent_same {t : Tables} {rec : List Str → List Item} {st : ParseState} {l : Str} (hm : st.missing = false) (h : Silent l) :
    parseLine t rec st l = st := by
  have hc := parseLine_case t rec st l
  generalize parseLine t rec st l = st' at hc
  have hn : ∀ {p : Prop}, ¬ (Heading l ∨ Blank l) → ¬ Remark l → p := by
    intro p h1 h2
    rcases h with h | h | h
    · exact absurd (.inl h) h1
    · exact absurd (.inr h) h1
    · exact absurd h h2
  cases hc with
  | skip => rfl
  | ends _ h2 _ => rw [hm] at h2; exact absurd h2 (by simp)
  | remark => rfl
  | under h1 _ hm => exact hn h1 hm
  | block h1 _ hm => exact hn h1 hm
  | top h1 _ hm => exact hn h1 hm

theorem stays_out {t : Tables} {rec : List Str → List Item} {st : ParseState} {l : Str} (hm : st.missing = false)
    (hl : ¬ Silent l → ¬ StartsBlank l → t.missingIndent.any (fun r => r l) = false) : (parseLine t rec st l).missing = false := by
  have hc := parseLine_case t rec st l
  generalize parseLine t rec st l = st' at hc
  cases hc with
  | skip => exact hm
  | ends => rfl
  | remark => exact hm
  | under => exact hm
  | block => exact hm
  | top h1 _ h2 h3 => exact hl (by
      rintro (h | h | h)
      exacts [h1 (.inl h), h1 (.inr h), h2 h]) h3

theorem fold_busy {t : Tables} {rec : List Str → List Item} : ∀ (ls : List Str) (st : ParseState),
    (ls.filter fun l => decide ¬ Idle l).foldl (parseLine t rec) st = ls.foldl (parseLine t rec) st
  | [], _ => rfl
  | l :: r, st => by
    rw [List.filter_cons, List.foldl_cons]
    by_cases h : Idle l
    · rw [if_neg (by simp [h]), idle_same h, fold_busy r st]
    · rw [if_pos (by simp [h]), List.foldl_cons, fold_busy r]

theorem fold_spoken {t : Tables} {rec : List Str → List Item} : ∀ (ls : List Str) (st : ParseState), st.missing = false →
    (∀ l ∈ ls, ¬ Silent l → ¬ StartsBlank l → t.missingIndent.any (fun r => r l) = false) →
    (ls.filter fun l => decide ¬ Silent l).foldl (parseLine t rec) st = ls.foldl (parseLine t rec) st
  | [], _, _, _ => rfl
  | l :: r, st, hm, hl => by
    have hr := fun x hx => hl x (List.mem_cons_of_mem l hx)
    rw [List.filter_cons, List.foldl_cons]
    by_cases h : Silent l
    · rw [if_neg (by simp [h]), silent_same hm h, fold_spoken r st hm hr]
    · rw [if_pos (by simp [h]), List.foldl_cons, fold_spoken r _ (stays_out hm (hl l (by simp))) hr]

theorem parse_busy (t : Tables) (s : Str) : config2list t s = parseLines t (busyLines s) := by
  show parseLines t (splitLines s) = _
  rw [parseLines_eq, parseLines_eq t (busyLines s), busyLines, fold_busy]

theorem parse_spoken {t : Tables} {s : Str} (h : NoBlocks t s) : config2list t s = parseLines t (spokenLines s) := by
  show parseLines t (splitLines s) = _
  rw [parseLines_eq, parseLines_eq t (spokenLines s), spokenLines, fold_spoken _ _ rfl fun l hl hs => h l (List.mem_filter.2 ⟨hl, by simp [hs]⟩)]

end NcDiff.Running
