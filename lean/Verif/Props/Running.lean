import Verif.Proof.Reorder
import Verif.Proof.Commands
/-!
# Properties C19 - C24: running-config diffs

All theorems hold for every table of special commands.
-/

namespace NcDiff.Running

/-! ## C20 -/

/-- C20: `ListDiff` never fails; its result is the report of a complete, in-order account of removed,
added and kept lines; removed lines are lines of the first list and added ones of the second; an empty
diff means that the lists are equal. -/
theorem C20_list_diff_faithful (l1 l2 : List Item) : ∃ d, compare l1 l2 = some d ∧
    (∃ s, Script l1 l2 s ∧ Report s d ∧
      l1.map Item.key = (s.filter (fun i => i.info ≠ .add)).map Item.key ∧
      l2.map Item.key = (s.filter (fun i => i.info ≠ .del)).map Item.key) ∧
    ((d.filter (fun i => i.info = .del)).map (fun i => (i.key, i.sub))).Sublist
      (l1.map (fun i => (i.key, i.sub))) ∧
    ((d.filter (fun i => i.info = .add)).map (fun i => (i.key, i.sub))).Sublist
      (l2.map (fun i => (i.key, i.sub))) ∧
    (d = [] → l1.map (fun i => (i.key, i.sub)) = l2.map (fun i => (i.key, i.sub))) := by
  obtain ⟨d, hd, s, hs, hr⟩ := compare_faithful l1 l2
  refine ⟨d, hd, ⟨s, hs, hr, hs.keys.1, hs.keys.2⟩, ?_, ?_, ?_⟩
  · rw [hr.filter (Or.inl rfl)]; exact hs.marked_sublist.1
  · rw [hr.filter (Or.inr rfl)]; exact hs.marked_sublist.2
  · rintro rfl; exact Faithful.empty ⟨s, hs, hr⟩

/-! ## C21 -/

/-- C21: when no section repeats a line, aligning orderless lines only moves orderless lines; nothing
is lost, added or changed at any level. -/
theorem C21_orderless_only_moves (t : Tables) (l1 l2 : List Item) (depth : Nat) (h1 : Distinct l1)
    (h2 : Distinct l2) : Shuffled t depth l1 (handleOrderless t l1 l2 depth) :=
  orderlessFuel_shuffled _ depth h1 h2

/-! ## C22 -/

/-- C22: texts that differ only in the order of adjacent orderless lines have an empty diff, in both
directions.  (The second hypothesis is about the lines after the sub-lines that are in fact siblings
have been moved up.) -/
theorem C22_orderless_order_ignored (t : Tables) (s1 s2 : Str)
    (h : OnlyReordered t 0 (config2list t (replaceCommands t s1)) (config2list t (replaceCommands t s2)))
    (hd : Distinct (config2list t (replaceCommands t s1)))
    (hs : ((handleSibling t (config2list t (replaceCommands t s2))).map Item.key).Nodup) :
    getDiff t s1 s2 false = some [] ∧ getDiff t s1 s2 true = some [] := by
  unfold getDiff running2list
  simp only [handleOrderless_eq h hd, compare_self_nodup hs, if_true, Bool.false_eq_true, if_false, and_self]

/-! ## C19 -/

/-- C19: a text without repeated lines has no diff with itself: falsy, printed empty, no commands. -/
theorem C19_identical_no_diff (t : Tables) (s : Str)
    (hd : Distinct (config2list t (replaceCommands t s)))
    (hs : ((handleSibling t (config2list t (replaceCommands t s))).map Item.key).Nodup) :
    diffBool t s s = some false ∧ diffStr t s s = some [] ∧ getCli t s s false = some [] ∧
      getCli t s s true = some [] := by
  obtain ⟨h1, h2⟩ := C22_orderless_order_ignored t s s (OnlyReordered.refl t _ 0) hd hs
  unfold diffBool diffStr getCli
  rw [h1, h2]
  exact ⟨rfl, rfl, rfl, rfl⟩

/-! ## C23 -/

/-- C23, duplicates: what stays is exactly each first occurrence, in order. -/
theorem C23_first_occurrences (l : List Str) : removeDuplicates [] l =
    (l.zipIdx.filter (fun p => l.idxOf p.1 = p.2)).map Prod.fst := by
  have := removeDuplicates_eq l [] [] (by simp)
  simpa using this

/-- C23, negative commands: a command is dropped exactly if it is a one-line command and a strictly
shorter prefix of it is a one-line command of the list; and then such a prefix stays. -/
theorem C23_negative (l : List Str) :
    (removeNegative l).Sublist l ∧
    (∀ c ∈ l, c ∉ removeNegative l ↔ '\n' ∉ c ∧ ∃ c' ∈ l, '\n' ∉ c' ∧ ShorterPrefix c' c) ∧
    (∀ c ∈ l, c ∉ removeNegative l → ∃ c' ∈ removeNegative l, ShorterPrefix c' c) := by
  have hiff : ∀ c ∈ l, c ∉ removeNegative l ↔ '\n' ∉ c ∧ ∃ c' ∈ l, '\n' ∉ c' ∧ ShorterPrefix c' c := by
    intro c hc
    rw [removeNegative_eq, List.mem_filter, not_and_or]
    simp [hc, List.any_eq_true]
  refine ⟨by rw [removeNegative_eq]; exact List.filter_sublist, hiff, ?_⟩
  intro c hc hd
  obtain ⟨h1, c', hc', h2, h3⟩ := (hiff c hc).1 hd
  obtain ⟨x, hx, _, hb⟩ := exists_best (l := l) (cand := fun c => !c.contains '\n')
    (bad := fun a b => ShorterPrefix b a) List.length
    (fun a _ b _ h => (shorterPrefix_iff.1 h).1)
    (fun a b c h1 h2 => ⟨h2.1.trans h1.1, fun e => by
      have e1 := (shorterPrefix_iff.1 h1).1
      have e2 := (shorterPrefix_iff.1 h2).1
      rw [e] at e2; omega⟩) c.length c (Nat.le_refl _) hc (by simpa using h1)
    ⟨c', hc', by simpa using h2, h3⟩
  exact ⟨x, by rw [removeNegative_eq]; exact hx, hb⟩

theorem length_le_sum {b : Str} : ∀ {l : List Str}, b ∈ l → b.length ≤ (l.map List.length).sum
  | [], h => by simp at h
  | a :: l, h => by
    rw [List.map_cons, List.sum_cons]
    rcases List.mem_cons.1 h with rfl | h
    · omega
    · have := length_le_sum h; omega

/-- C23, positive commands: a command is dropped exactly if it is a strictly shorter prefix of another
command; and then such an extension stays.  Commands with several lines and the commands of the
coexistence table take no part. -/
theorem C23_positive (t : Tables) (l : List Str) :
    (removePositive t l).Sublist l ∧
    (∀ c ∈ l, c ∉ removePositive t l ↔ ('\n' ∉ c ∧ c ∉ t.coexist) ∧
      ∃ c' ∈ l, ('\n' ∉ c' ∧ c' ∉ t.coexist) ∧ ShorterPrefix c c') ∧
    (∀ c ∈ l, c ∉ removePositive t l → ∃ c' ∈ removePositive t l, ShorterPrefix c c') := by
  have hiff : ∀ c ∈ l, c ∉ removePositive t l ↔ ('\n' ∉ c ∧ c ∉ t.coexist) ∧
      ∃ c' ∈ l, ('\n' ∉ c' ∧ c' ∉ t.coexist) ∧ ShorterPrefix c c' := by
    intro c hc
    rw [removePositive_eq, List.mem_filter, not_and_or]
    simp [hc, List.any_eq_true, and_assoc]
  refine ⟨by rw [removePositive_eq]; exact List.filter_sublist, hiff, ?_⟩
  intro c hc hd
  obtain ⟨h1, c', hc', h2, h3⟩ := (hiff c hc).1 hd
  obtain ⟨x, hx, _, hb⟩ := exists_best (l := l) (cand := fun c => !c.contains '\n' && !t.coexist.contains c)
    (bad := ShorterPrefix) (fun c => (l.map List.length).sum - c.length)
    (fun a _ b hb h => by
      have e1 := (shorterPrefix_iff.1 h).1
      have e2 : b.length ≤ (l.map List.length).sum := length_le_sum hb
      omega)
    (fun a b c h1 h2 => ⟨h1.1.trans h2.1, fun e => by
      have e1 := (shorterPrefix_iff.1 h1).1
      have e2 := (shorterPrefix_iff.1 h2).1
      rw [e] at e1; omega⟩) _ c (Nat.le_refl _) hc (by simpa using h1)
    ⟨c', hc', by simpa using h2, h3⟩
  exact ⟨x, by rw [removePositive_eq]; exact hx, hb⟩

/-! ## C24 -/

theorem rstrip_prefix (s : Str) : rstrip s <+: s := by
  unfold rstrip
  obtain ⟨a, ha⟩ := List.dropWhile_suffix isSpace (l := s.reverse)
  refine ⟨a.reverse, ?_⟩
  rw [← List.reverse_append, ha, List.reverse_reverse]

theorem strip_infix (s : Str) : strip s <:+: s :=
  (rstrip_prefix _).isInfix.trans (List.dropWhile_suffix isSpace).isInfix

theorem strip_of_head {c : Char} {s : Str} (hc : isSpace c = false) : strip (c :: s) = rstrip (c :: s) := by
  unfold strip lstrip
  rw [List.dropWhile_cons_of_neg (by simp [hc])]

/-- C24: a removed line `no X` gives the positive command `X`; a removed line that does not start with
`no ` gives a negative command, either `no` and the line or one of the short forms that start it; an
added line is kept as it is (or a short form of it) and is negative exactly if it starts with `no `. -/
theorem C24_negation (t : Tables) :
    (∀ x, handleCommand t ("no ".toList ++ ("no ".toList ++ x)) = (strip x, false)) ∧
    (∀ k, ¬ "no ".toList <+: k → (∀ s ∈ t.shortNo, "no ".toList <+: s) →
      (handleCommand t ("no ".toList ++ k)).2 = true ∧
      ((handleCommand t ("no ".toList ++ k)).1 = rstrip ("no ".toList ++ k) ∨
        ∃ s ∈ t.shortNo, s <+: "no ".toList ++ k ∧ (handleCommand t ("no ".toList ++ k)).1 = strip s)) ∧
    (∀ k, ¬ "no ".toList <+: k → (∀ s ∈ t.shortNo, "no ".toList <+: s) →
      handleCommand t k = (strip k, false)) := by
  refine ⟨?_, ?_, ?_⟩
  · intro x
    unfold handleCommand
    rw [if_pos (by simp [List.isPrefixOf])]
    rfl
  · intro k hk ht
    unfold handleCommand
    have h1 : ("no no ".toList.isPrefixOf ("no ".toList ++ k)) = false := by
      rw [Bool.eq_false_iff]
      intro h
      rw [List.isPrefixOf_iff_prefix] at h
      have h' : "no ".toList ++ "no ".toList <+: "no ".toList ++ k := h
      exact hk ((List.prefix_append_right_inj _).1 h')
    rw [h1]
    simp only [Bool.false_eq_true, if_false]
    cases hf : t.shortNo.find? (fun s => s.isPrefixOf ("no ".toList ++ k)) with
    | some s =>
      refine ⟨rfl, Or.inr ⟨s, List.mem_of_find?_eq_some hf, ?_, rfl⟩⟩
      have := List.find?_some hf
      exact List.isPrefixOf_iff_prefix.1 this
    | none =>
      refine ⟨by simp [List.isPrefixOf], Or.inl ?_⟩
      exact strip_of_head (by decide)
  · intro k hk ht
    unfold handleCommand
    have h1 : ("no no ".toList.isPrefixOf k) = false := by
      rw [Bool.eq_false_iff]
      intro h
      rw [List.isPrefixOf_iff_prefix] at h
      exact hk ((List.prefix_append "no ".toList "no ".toList).trans h)
    have h2 : t.shortNo.find? (fun s => s.isPrefixOf k) = none := by
      rw [List.find?_eq_none]
      intro s hs h
      exact hk ((ht s hs).trans (List.isPrefixOf_iff_prefix.1 h))
    have h3 : ("no ".toList.isPrefixOf k) = false := by
      rw [Bool.eq_false_iff]
      intro h
      exact hk (List.isPrefixOf_iff_prefix.1 h)
    rw [h1, h2, h3]; rfl

/-- C24: no command made from a line without a double `no no ` starts with `no no `. -/
theorem C24_no_double_negation (t : Tables) (k : Str) (hk : ¬ "no no ".toList <:+: k)
    (ht : ∀ s ∈ t.shortNo, ¬ "no no ".toList <:+: s) (cmd : Str) (hc : cmd = k ∨ cmd = "no ".toList ++ k) :
    ¬ "no no ".toList <+: (handleCommand t cmd).1 := by
  unfold handleCommand
  split
  · rename_i h
    rw [List.isPrefixOf_iff_prefix] at h
    intro hp
    have h1 : "no no ".toList <:+: cmd.drop 6 := hp.isInfix.trans (strip_infix _)
    rcases hc with rfl | rfl
    · exact hk h.isInfix
    · exact hk (h1.trans (List.drop_suffix 3 k).isInfix)
  · rename_i h
    cases hf : t.shortNo.find? (fun s => s.isPrefixOf cmd) with
    | some s =>
      intro hp
      exact ht s (List.mem_of_find?_eq_some hf) (hp.isInfix.trans (strip_infix _))
    | none =>
      simp only
      intro hp
      rcases hc with rfl | rfl
      · exact hk (hp.isInfix.trans (strip_infix _))
      · apply h
        rw [List.isPrefixOf_iff_prefix]
        have : strip ("no ".toList ++ k) = rstrip ("no ".toList ++ k) := strip_of_head (by decide)
        rw [this] at hp
        exact hp.trans (rstrip_prefix _)

/-! ## Concrete cases -/

namespace Demo

/-- Executable `Distinct`. -/
def distinctB : Nat → List Item → Bool
  | 0, l => l.isEmpty
  | n + 1, l => decide (l.map Item.key).Nodup && l.all (fun i => match i.sub with
      | none => true
      | some s => distinctB n s)

theorem distinctB_sound : ∀ n l, distinctB n l = true → Distinct l
  | 0, l, h => by
    have : l = [] := by simpa [distinctB] using h
    subst this; exact .mk (by simp) (by simp)
  | n + 1, l, h => by
    unfold distinctB at h
    rw [Bool.and_eq_true, decide_eq_true_eq, List.all_eq_true] at h
    refine .mk h.1 ?_
    intro i hi s hs
    have := h.2 i hi
    rw [hs] at this
    exact distinctB_sound n s this

/-- Two running-configs that differ in the order of orderless lines, at two levels. -/
def run1 : Str := "hostname r1\nlogging host 1.1.1.1\nlogging host 2.2.2.2\nrouter bgp 1\n neighbor 1.1.1.1 remote-as 1\n neighbor 2.2.2.2 remote-as 2\n bgp log\nend\n".toList
def run2 : Str := "hostname r1\nlogging host 2.2.2.2\nlogging host 1.1.1.1\nrouter bgp 1\n neighbor 2.2.2.2 remote-as 2\n neighbor 1.1.1.1 remote-as 1\n bgp log\nend\n".toList

theorem run_reordered : OnlyReordered ciscoTables 0 (config2list ciscoTables (replaceCommands ciscoTables run1))
    (config2list ciscoTables (replaceCommands ciscoTables run2)) := by
  have e1 : config2list ciscoTables (replaceCommands ciscoTables run1) =
    [.mk "hostname r1".toList none .ctx, .mk "logging host 1.1.1.1".toList none .ctx,
     .mk "logging host 2.2.2.2".toList none .ctx,
     .mk "router bgp 1".toList (some [.mk "neighbor 1.1.1.1 remote-as 1".toList none .ctx,
       .mk "neighbor 2.2.2.2 remote-as 2".toList none .ctx, .mk "bgp log".toList none .ctx]) .ctx,
     .mk "end".toList none .ctx] := by decide +kernel
  have e2 : config2list ciscoTables (replaceCommands ciscoTables run2) =
    [.mk "hostname r1".toList none .ctx, .mk "logging host 2.2.2.2".toList none .ctx,
     .mk "logging host 1.1.1.1".toList none .ctx,
     .mk "router bgp 1".toList (some [.mk "neighbor 2.2.2.2 remote-as 2".toList none .ctx,
       .mk "neighbor 1.1.1.1 remote-as 1".toList none .ctx, .mk "bgp log".toList none .ctx]) .ctx,
     .mk "end".toList none .ctx] := by decide +kernel
  rw [e1, e2]
  refine .leaf (.trans (.swap (by decide +kernel) (by decide +kernel)) ?_)
  refine .leaf (.leaf (.node (.swap (by decide +kernel) (by decide +kernel)) (OnlyReordered.refl _ _ _)))

theorem run1_distinct : Distinct (config2list ciscoTables (replaceCommands ciscoTables run1)) :=
  distinctB_sound 5 _ (by decide +kernel)

example : getDiff ciscoTables run1 run2 false = some [] ∧ getDiff ciscoTables run1 run2 true = some [] :=
  C22_orderless_order_ignored ciscoTables run1 run2 run_reordered run1_distinct (by decide +kernel)

example : diffBool ciscoTables run1 run1 = some false :=
  (C19_identical_no_diff ciscoTables run1 run1_distinct (by decide +kernel)).1

example : Shuffled ciscoTables 0 (config2list ciscoTables run1)
    (handleOrderless ciscoTables (config2list ciscoTables run1) (config2list ciscoTables run2) 0) :=
  C21_orderless_only_moves _ _ _ _ (distinctB_sound 5 _ (by decide +kernel)) (distinctB_sound 5 _ (by decide +kernel))

example : ¬ "no no ".toList <+: (handleCommand ciscoTables ("no ".toList ++ "no shutdown".toList)).1 :=
  C24_no_double_negation _ "no shutdown".toList (by decide +kernel) (by decide +kernel) _ (Or.inr rfl)

example : (∀ s ∈ ciscoTables.shortNo, "no ".toList <+: s) := by decide +kernel

/-- C20 has no hypotheses; a diff with a removed, an added, a changed and an unchanged line. -/
example : compare (config2list ciscoTables "a\nb\n c\nd\n".toList) (config2list ciscoTables "b\n e\nd\nf\n".toList) =
    some [.mk ['a'] none .del, .mk ['b'] (some [.mk ['c'] none .del, .mk ['e'] none .add]) .ctx,
      .mk ['f'] none .add] := by decide +kernel

/-- C23 has no hypotheses; a chain of three prefixes leaves its shortest, respectively longest. -/
example : removeNegative ["no a b c".toList, "no a b".toList, "no a".toList, "no b".toList] =
      ["no a".toList, "no b".toList] ∧
    removePositive ciscoTables ["a".toList, "a b".toList, "a b c".toList, "b".toList] =
      ["a b c".toList, "b".toList] ∧
    removeDuplicates [] ["a".toList, "b".toList, "a".toList] = ["a".toList, "b".toList] := by decide +kernel

/-- C19 does not hold for texts that repeat a line: the lines between are reported as context. -/
theorem C19_false_with_repeated_lines : diffBool ciscoTables "x\nA\nx\n".toList "x\nA\nx\n".toList = some true := by
  decide +kernel

/-- C21 does not hold for sections that repeat an orderless line: one of the two is lost. -/
theorem C21_false_with_repeated_lines :
    (handleOrderless ciscoTables (config2list ciscoTables "ntp server a\nx\nntp server a\n".toList)
      (config2list ciscoTables "ntp server a\nx\n".toList) 0).length = 2 ∧
    (config2list ciscoTables "ntp server a\nx\nntp server a\n".toList).length = 3 := by
  decide +kernel

end Demo

end NcDiff.Running
