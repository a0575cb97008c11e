import Verif.Spec.Paste
import Verif.Proof.Parse
import Verif.Proof.Commands
/-!
# The text of the commands, as a tree of lines
-/

namespace NcDiff.Running

/-! ## Joined lines -/

theorem joinLines_unlines : ∀ {ls : List Str}, ls ≠ [] → joinLines ls ++ ['\n'] = unlines ls
  | [], h => absurd rfl h
  | [a], _ => by simp [joinLines, unlines]
  | a :: b :: r, _ => by
    have := joinLines_unlines (ls := b :: r) (by simp)
    rw [joinLines, unlines, List.flatMap_cons, ← unlines, ← this]
    · simp
    · simp

theorem joinLines_append : ∀ {a b : List Str}, a ≠ [] → b ≠ [] →
    joinLines (a ++ b) = joinLines a ++ '\n' :: joinLines b
  | [], _, h, _ => absurd rfl h
  | [x], b, _, hb => by
    cases b with
    | nil => exact absurd rfl hb
    | cons y r => rfl
  | x :: y :: r, b, _, hb => by
    have := joinLines_append (a := y :: r) (by simp) hb
    have e1 : joinLines (x :: y :: r ++ b) = x ++ '\n' :: joinLines (y :: r ++ b) := by
      rw [List.cons_append, joinLines]; simp
    have e2 : joinLines (x :: y :: r) = x ++ '\n' :: joinLines (y :: r) := by
      rw [joinLines]; simp
    rw [e1, this, e2]
    simp

theorem joinLines_flat : ∀ {ls : List (List Str)}, (∀ l ∈ ls, l ≠ []) →
    joinLines (ls.map joinLines) = joinLines ls.flatten
  | [], _ => rfl
  | [a], _ => by simp [joinLines]
  | a :: b :: r, h => by
    have ih := joinLines_flat (ls := b :: r) (fun l hl => h l (by simp [List.mem_cons.1 hl]))
    have hne : (b :: r).flatten ≠ [] := by
      rw [List.flatten_cons]; intro e
      exact h b (by simp) (List.append_eq_nil_iff.1 e).1
    rw [List.flatten_cons, joinLines_append (h a (by simp)) hne, ← ih, List.map_cons, joinLines]
    · simp

theorem splitLinesGo_end : ∀ (k cur : Str), (∀ c ∈ k, isBreak c = false) → cur.reverse ++ k ≠ [] →
    splitLinesGo cur k = [cur.reverse ++ k]
  | [], cur, _, h => by
    rw [splitLinesGo, if_neg]
    · simp
    · rintro rfl; simp at h
  | c :: k, cur, h, _ => by
    have hc : isBreak c = false := h c (by simp)
    rw [splitLinesGo]
    · rw [hc]
      simp only [Bool.false_eq_true, if_false]
      rw [splitLinesGo_end k (c :: cur) (fun x hx => h x (by simp [hx])) (by simp)]
      simp
    · intro r' h1
      subst h1
      simp [isBreak] at hc

theorem splitLines_join : ∀ {ls : List Str}, (∀ l ∈ ls, (∀ c ∈ l, isBreak c = false) ∧ l ≠ []) →
    splitLines (joinLines ls) = ls
  | [], _ => rfl
  | [a], h => by
    obtain ⟨h1, h2⟩ := h a (by simp)
    unfold splitLines joinLines
    rw [splitLinesGo_end a [] h1 (by simpa using h2)]; rfl
  | a :: b :: r, h => by
    have ih := splitLines_join (ls := b :: r) (fun l hl => h l (by simp [List.mem_cons.1 hl]))
    unfold splitLines at ih ⊢
    rw [joinLines]
    · rw [splitLinesGo_line a [] _ (h a (by simp)).1, ih]; rfl
    · simp

theorem rstrip_break (s : Str) : rstrip (s ++ ['\n']) = rstrip s := by
  unfold rstrip
  rw [List.reverse_append]
  simp only [List.reverse_cons, List.reverse_nil, List.nil_append, List.cons_append]
  rw [List.dropWhile_cons_of_pos (by decide)]

theorem rstrip_append {a b : Str} (hb : rstrip b = b) (hn : b ≠ []) : rstrip (a ++ b) = a ++ b := by
  unfold rstrip at *
  rw [List.reverse_append]
  have hb' : b.reverse.dropWhile isSpace = b.reverse := by
    exact (List.reverse_eq_iff.1 hb)
  cases hr : b.reverse with
  | nil => simp at hr; exact absurd hr hn
  | cons c r =>
    rw [hr] at hb'
    have hc : isSpace c = false := by
      rw [Bool.eq_false_iff]
      intro hc
      rw [List.dropWhile_cons_of_pos hc] at hb'
      have := (List.dropWhile_suffix isSpace (l := r)).length_le
      rw [hb'] at this
      simp at this
      omega
    rw [List.cons_append, List.dropWhile_cons_of_neg (by simp [hc]), ← List.cons_append, ← hr,
      ← List.reverse_append, List.reverse_reverse]

theorem rstrip_join : ∀ {ls : List Str}, (∀ l ∈ ls, rstrip l = l ∧ l ≠ []) → rstrip (joinLines ls) = joinLines ls
  | [], _ => rfl
  | [a], h => (h a (by simp)).1
  | a :: b :: r, h => by
    have ih := rstrip_join (ls := b :: r) (fun l hl => h l (by simp [List.mem_cons.1 hl]))
    rw [joinLines]
    · have : a ++ '\n' :: joinLines (b :: r) = (a ++ ['\n']) ++ joinLines (b :: r) := by simp
      rw [this]
      apply rstrip_append ih
      cases r with
      | nil => exact (h b (by simp)).2
      | cons c r => simp [joinLines]
    · simp

theorem Indented.rstrip {t : Tables} {n : Nat} {k x : Str} (h : Indented t n k x) : rstrip x = x ∧ x ≠ [] := by
  obtain ⟨c, r, hk, _⟩ := h.good.first
  have hn : k ≠ [] := by rw [hk]; simp
  rw [h.eq]
  exact ⟨rstrip_append h.good.last hn, by simp [hn]⟩

theorem GoodText.rstrip {t : Tables} {l : List Item} (h : GoodText t l) (hl : l ≠ []) (n : Nat) :
    Running.rstrip (unlines (textLines n l)) = joinLines (textLines n l) := by
  obtain ⟨k, x, r, he, _⟩ := h.head hl n
  rw [← joinLines_unlines (by rw [he]; simp), rstrip_break, rstrip_join]
  intro y hy
  obtain ⟨k', m, _, h1⟩ := h.lines n y hy
  exact h1.rstrip

/-! ## The text of an item -/

/-- The text of one command. -/
def cmdText (a : Item) : Str := joinLines (itemLines 0 a)

theorem cmdText_none (k : Str) (i : Info) : cmdText (.mk k none i) = k := by
  simp [cmdText, itemLines, subLines, joinLines]

theorem textLines_eq_flatten (n : Nat) : ∀ l, textLines n l = (l.map (itemLines n)).flatten
  | [] => rfl
  | a :: r => by rw [textLines, textLines_eq_flatten n r]; rfl

theorem itemLines_ne (n : Nat) (a : Item) : itemLines n a ≠ [] := by
  cases a; simp [itemLines]

theorem joinLines_cmdText (l : List Item) : joinLines (l.map cmdText) = joinLines (textLines 0 l) := by
  rw [textLines_eq_flatten, ← joinLines_flat]
  · rw [List.map_map]; rfl
  · intro x hx
    obtain ⟨a, _, rfl⟩ := List.mem_map.1 hx
    exact itemLines_ne 0 a

theorem cmdText_some {t : Tables} {k : Str} {l : List Item} {i : Info} (h : GoodText t l) (hl : l ≠ []) :
    cmdText (.mk k (some l) i) = k ++ '\n' :: joinLines (textLines 1 l) := by
  obtain ⟨k', x, r, he, _⟩ := h.head hl 1
  unfold cmdText itemLines subLines
  rw [he, joinLines]
  · simp
  · simp

theorem cmdText_key {a : Item} (h : '\n' ∉ a.key) : (cmdText a).takeWhile (· ≠ '\n') = a.key := by
  obtain ⟨k, s, i⟩ := a
  have hk : ∀ c ∈ k, decide (c ≠ '\n') = true := by
    intro c hc
    rw [decide_eq_true_eq]
    rintro rfl
    exact h hc
  unfold cmdText itemLines
  cases hs : subLines 0 s with
  | nil =>
    simp only [joinLines, Nat.mul_zero, List.replicate_zero, List.nil_append, Item.key]
    rw [← List.append_nil k, List.takeWhile_append_of_pos hk]; simp
  | cons x r =>
    rw [joinLines]
    · simp only [Nat.mul_zero, List.replicate_zero, List.nil_append, Item.key]
      rw [List.takeWhile_append_of_pos hk]; simp
    · simp

theorem GoodLine.noFeed {t : Tables} {k : Str} (h : GoodLine t k) : '\n' ∉ k := by
  intro hc
  have := h.oneLine _ hc
  simp [isBreak] at this

theorem cmdText_cases (a : Item) : cmdText a = a.key ∨ ∃ r, cmdText a = a.key ++ '\n' :: r := by
  obtain ⟨k, s, i⟩ := a
  unfold cmdText itemLines
  cases hs : subLines 0 s with
  | nil => left; simp [joinLines, Item.key]
  | cons x r =>
    right
    refine ⟨joinLines (x :: r), ?_⟩
    rw [joinLines]
    · simp [Item.key]
    · simp

theorem cmdText_nodup : ∀ {l : List Item}, (∀ a ∈ l, '\n' ∉ a.key) → (l.map Item.key).Nodup →
    (l.map cmdText).Nodup := by
  intro l h hn
  have : (l.map cmdText).map (fun s => s.takeWhile (· ≠ '\n')) = l.map Item.key := by
    rw [List.map_map]
    apply List.map_congr_left
    intro a ha
    exact cmdText_key (h a ha)
  rw [← this] at hn
  exact hn.of_map _

/-! ## Clean-up keeps everything -/

theorem removeDuplicates_nodup : ∀ {l seen : List Str}, l.Nodup → (∀ x ∈ l, x ∉ seen) →
    removeDuplicates seen l = l
  | [], _, _, _ => rfl
  | a :: r, seen, hn, h => by
    rw [List.nodup_cons] at hn
    rw [removeDuplicates, if_neg (h a (by simp)), removeDuplicates_nodup hn.2]
    intro x hx
    rw [List.mem_cons]
    rintro (rfl | hs)
    · exact hn.1 hx
    · exact h x (by simp [hx]) hs

theorem removeNegative_id {l : List Str} (h : ∀ a ∈ l, ∀ b ∈ l, '\n' ∉ a → '\n' ∉ b → ¬ ShorterPrefix a b) :
    removeNegative l = l := by
  rw [removeNegative_eq, List.filter_eq_self]
  intro a ha
  rw [Bool.not_eq_true', Bool.and_eq_false_iff]
  by_cases hn : '\n' ∈ a
  · left; simpa using hn
  · right
    rw [Bool.eq_false_iff]
    intro hx
    rw [List.any_eq_true] at hx
    obtain ⟨b, hb, hx⟩ := hx
    simp only [Bool.and_eq_true, decide_eq_true_eq] at hx
    exact h b hb a ha (by simpa using hx.1) hn hx.2

theorem removePositive_id {t : Tables} {l : List Str}
    (h : ∀ a ∈ l, ∀ b ∈ l, '\n' ∉ a → '\n' ∉ b → ¬ ShorterPrefix a b) : removePositive t l = l := by
  rw [removePositive_eq, List.filter_eq_self]
  intro a ha
  rw [Bool.not_eq_true', Bool.and_eq_false_iff]
  by_cases hn : '\n' ∈ a
  · left; rw [Bool.and_eq_false_iff]; left; simpa using hn
  · right
    rw [Bool.eq_false_iff]
    intro hx
    rw [List.any_eq_true] at hx
    obtain ⟨b, hb, hx⟩ := hx
    simp only [Bool.and_eq_true, decide_eq_true_eq] at hx
    exact h a ha b hb hn (by simpa using hx.1.1) hx.2

theorem overwrite_id {t : Tables} {c : Cmds} (h : ∀ rx ∈ t.overwritable, ∀ s ∈ c.pos, rx s = none) :
    overwrite t c = c := by
  have h1 : ∀ rx ∈ t.overwritable, ∀ st, c.pos.zipIdx.foldl (overStep rx) st = st := by
    intro rx hrx
    have : ∀ (l : List (Str × Nat)), (∀ p ∈ l, rx p.1 = none) → ∀ st, l.foldl (overStep rx) st = st := by
      intro l
      induction l with
      | nil => intro _ st; rfl
      | cons a l ih =>
        intro hl st
        rw [List.foldl_cons]
        have : overStep rx st a = st := by unfold overStep; rw [hl a (by simp)]
        rw [this]
        exact ih (fun p hp => hl p (by simp [hp])) st
    apply this
    rintro ⟨s, i⟩ hp
    exact h rx hrx s (List.fst_mem_of_mem_zipIdx hp)
  have h2 : ∀ (l : List (Str → Option Str)), (∀ rx ∈ l, rx ∈ t.overwritable) → ∀ st,
      l.foldl (fun st rx => c.pos.zipIdx.foldl (overStep rx) st) st = st := by
    intro l
    induction l with
    | nil => intro _ st; rfl
    | cons a l ih =>
      intro hl st
      rw [List.foldl_cons, h1 a (hl a (by simp))]
      exact ih (fun p hp => hl p (by simp [hp])) st
  unfold overwrite
  rw [h2 _ (fun _ h => h)]
  simp

end NcDiff.Running
