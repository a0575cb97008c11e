import Verif.Spec.Width
import Verif.Proof.Parse
/-!
# Proof that running-configs can have any indentation
-/

namespace NcDiff.Running

/-- An indented line in a section. -/
theorem parseLine_width {t : Tables} {f : List Str → List Item} {st : ParseState} {n w : Nat} {k line : Str}
    (h : Indented t n k line) (hw : 0 < w) (hn : w ≤ n) (hi : st.lastIndent = 0 ∧ n = w ∨ st.lastIndent = w)
    (hm : st.missing = false) :
    parseLine t f st line = { st with lastIndent := w, lastSection := st.lastSection ++ [line.drop w] } := by
  unfold parseLine
  simp only [h.ind]
  have h1 := h.header "Building configuration".toList ⟨_, _, rfl, by decide⟩ 22 rfl h.good.header.1
  have h2 := h.header "Current configuration".toList ⟨_, _, rfl, by decide⟩ 21 rfl h.good.header.2
  rw [if_neg (fun x => h1 x.2), if_neg (fun x => h2 x.2), if_neg h.ne_nil, if_neg (by simp [hm]),
    if_neg (by rw [h.mark (Or.inl rfl), h.mark (Or.inr rfl)]; simp), if_pos (by omega)]
  rcases hi with ⟨hi, rfl⟩ | hi
  · simp [hi]
  · simp only [hi]
    rw [if_neg (by omega : ¬ (w = 0)), if_neg (by omega)]

theorem Indented.more {t : Tables} {n : Nat} {k x : Str} (h : Indented t n k x) (w : Nat) :
    Indented t (w + n) k (List.replicate w ' ' ++ x) :=
  ⟨h.good, by rw [h.eq, ← List.append_assoc, List.replicate_append_replicate]⟩

theorem WrittenAs.lines {t : Tables} {l : List Item} {ls : List Str} (h : WrittenAs t l ls) : ∀ x ∈ ls, ∃ k m, Indented t m k x := by
  induction h with
  | nil => intro x hx; simp at hx
  | leaf hk _ ih =>
    intro x hx
    rcases List.mem_cons.1 hx with rfl | hx
    · exact ⟨_, 0, hk, rfl⟩
    · exact ih x hx
  | @node k s l ss ls w hk _ _ _ _ ih1 ih2 =>
    intro x hx
    rcases List.mem_cons.1 hx with rfl | hx
    · exact ⟨_, 0, hk, rfl⟩
    · rcases List.mem_append.1 hx with hx | hx
      · obtain ⟨y, hy, rfl⟩ := List.mem_map.1 hx
        obtain ⟨k', m, hi⟩ := ih1 y hy
        exact ⟨k', w + m, hi.more w⟩
      · exact ih2 x hx

theorem WrittenAs.head {t : Tables} {l : List Item} {ls : List Str} (h : WrittenAs t l ls) (hl : l ≠ []) :
    ∃ k r, ls = k :: r ∧ Indented t 0 k k := by
  cases h with
  | nil => exact absurd rfl hl
  | leaf hk _ => exact ⟨_, _, rfl, hk, rfl⟩
  | node hk _ _ _ _ => exact ⟨_, _, rfl, hk, rfl⟩

theorem drop_blanks (w : Nat) (x : Str) : (List.replicate w ' ' ++ x).drop w = x := by
  rw [List.drop_append_of_le_length (by simp)]
  simp

/-- The lines of a section, once the first has been read. -/
theorem fold_width {t : Tables} {f : List Str → List Item} {w : Nat} (hw : 0 < w) : ∀ (ls : List Str) (st : ParseState),
    st.missing = false → st.lastIndent = w → (∀ x ∈ ls, ∃ k m, Indented t m k x) →
    (ls.map (List.replicate w ' ' ++ ·)).foldl (parseLine t f) st = { st with lastSection := st.lastSection ++ ls }
  | [], st, _, _, _ => by simp
  | x :: r, st, hm, hi, h => by
    obtain ⟨k, m, hx⟩ := h x (by simp)
    rw [List.map_cons, List.foldl_cons, parseLine_width (hx.more w) hw (by omega) (Or.inr hi) hm, drop_blanks,
      fold_width hw r { st with lastIndent := w, lastSection := st.lastSection ++ [x] } hm rfl (fun y hy => h y (by simp [hy]))]
    simp [hi]

theorem fold_sub_width {t : Tables} {f : List Str → List Item} {w : Nat} (hw : 0 < w) {l : List Item} {ls : List Str}
    (h : WrittenAs t l ls) (hl : l ≠ []) (st : ParseState) (hm : st.missing = false) (hi : st.lastIndent = 0) :
    (ls.map (List.replicate w ' ' ++ ·)).foldl (parseLine t f) st =
      { st with lastIndent := w, lastSection := st.lastSection ++ ls } := by
  obtain ⟨k, r, rfl, hx⟩ := h.head hl
  have hx' := hx.more w
  rw [List.map_cons, List.foldl_cons, parseLine_width hx' hw (by omega) (Or.inl ⟨hi, by omega⟩) hm, drop_blanks,
    fold_width hw r { st with lastIndent := w, lastSection := st.lastSection ++ [k] } hm rfl (fun y hy => h.lines y (by simp [hy]))]
  simp

/-- Parsing the lines, from any state at a line boundary. -/
theorem fold_written {t : Tables} {l : List Item} {ls : List Str} (h : WrittenAs t l ls) : ∀ st : ParseState, st.missing = false →
    flush (parseLines t) (ls.foldl (parseLine t (parseLines t)) st) = flush (parseLines t) st ++ l := by
  induction h with
  | nil => intro st _; simp
  | @leaf k l ls hk _ ih =>
    intro st hm
    have hn : k ≠ [] := by obtain ⟨c, r, rfl, _⟩ := hk.first; simp
    rw [List.foldl_cons, parseLine_top hk hm, ih _ rfl]
    simp [flush, hn, hk.last]
  | @node k s l ss ls w hk hs hw hss _ ih1 ih2 =>
    intro st hm
    have hn : k ≠ [] := by obtain ⟨c, r, rfl, _⟩ := hk.first; simp
    have hr : parseLines t ss = s := by
      rw [parseLines_eq, ih1 _ rfl]; rfl
    rw [List.foldl_cons, parseLine_top hk hm, List.foldl_append, fold_sub_width hw hss hs _ rfl rfl, ih2 _ rfl]
    simp [flush, hn, hk.last, hr, hw]

theorem parse_written {t : Tables} {l : List Item} {ls : List Str} (h : WrittenAs t l ls) : config2list t (unlines ls) = l := by
  unfold config2list
  rw [splitLines_unlines]
  · show parseLines t ls = l
    rw [parseLines_eq, fold_written h _ rfl]; rfl
  · intro x hx
    obtain ⟨k, m, h1⟩ := h.lines x hx
    exact h1.noBreak

end NcDiff.Running
