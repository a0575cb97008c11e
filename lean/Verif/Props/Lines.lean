import Verif.Proof.Lines
/-!
# Property C56: parsing a running-config loses no line
-/

namespace NcDiff.Running

/-- For every text and every table: each command of the result is a line of the text, no line is used twice, and the order is the
order of the text. -/
theorem C56_nothing_invented (t : Tables) (s : Str) :
    (allCommands (config2list t s)).Sublist (((splitLines s).filter (fun l => decide (Meant l))).map command) :=
  parse_sub t _ _ (Nat.lt_succ_self _)

/-- Exactly which lines become commands, provided no heading is indented. -/
theorem C56_heard (t : Tables) (s : Str)
    (hh : ∀ l ∈ splitLines s, StartsBlank l → ¬ Heading (l.dropWhile (· = ' '))) :
    allCommands (config2list t s) = heard t false false (splitLines s) :=
  parse_heard t _ _ (Nat.lt_succ_self _) hh

theorem heard_plain (t : Tables) : ∀ (ls : List Str), (∀ l ∈ ls, ¬ StartsBlank l → t.missingIndent.any (fun x => x l) = false) →
    heard t true false ls = (ls.filter (fun l => decide (Meant l ∧ ¬ Heading l))).map command
  | [], _ => rfl
  | l :: r, h => by
    have ih := heard_plain t r (fun x hx => h x (by simp [hx]))
    rw [heard, List.filter_cons]
    by_cases h1 : Heading l
    · rw [if_pos (.inl h1), ih, if_neg (by simp [h1])]
    by_cases h2 : Blank l
    · rw [if_pos (.inr h2), ih, if_neg (by simp [Meant, h2])]
    rw [if_neg (by rintro (h | h); exacts [h1 h, h2 h]), if_neg (by simp)]
    by_cases h3 : Remark l
    · rw [if_pos h3, ih, if_neg (by simp [Meant, h3])]
    rw [if_neg h3, if_pos (decide_eq_true ⟨⟨h2, h3⟩, h1⟩), List.map_cons]
    by_cases h4 : StartsBlank l
    · rw [if_pos h4, if_pos rfl, ih]
    · rw [if_neg h4, h l (by simp) h4]
      show _ :: heard t true false r = _
      rw [ih]

theorem heard_start (t : Tables) : ∀ (ls : List Str), (∀ l ∈ ls, ¬ StartsBlank l → t.missingIndent.any (fun x => x l) = false) →
    (∀ l, (ls.filter (fun l => decide (Meant l ∧ ¬ Heading l))).head? = some l → ¬ StartsBlank l) →
    heard t false false ls = (ls.filter (fun l => decide (Meant l ∧ ¬ Heading l))).map command
  | [], _, _ => rfl
  | l :: r, h, hf => by
    have ih := heard_start t r (fun x hx => h x (by simp [hx]))
    rw [heard]
    rw [List.filter_cons] at hf ⊢
    by_cases h1 : Heading l
    · have hn : ¬ decide (Meant l ∧ ¬ Heading l) = true := by simp [h1]
      rw [if_neg hn] at hf ⊢
      rw [if_pos (.inl h1), ih hf]
    by_cases h2 : Blank l
    · have hn : ¬ decide (Meant l ∧ ¬ Heading l) = true := by simp [Meant, h2]
      rw [if_neg hn] at hf ⊢
      rw [if_pos (.inr h2), ih hf]
    rw [if_neg (by rintro (h | h); exacts [h1 h, h2 h]), if_neg (by simp)]
    by_cases h3 : Remark l
    · have hn : ¬ decide (Meant l ∧ ¬ Heading l) = true := by simp [Meant, h3]
      rw [if_neg hn] at hf ⊢
      rw [if_pos h3, ih hf]
    have hn : decide (Meant l ∧ ¬ Heading l) = true := decide_eq_true ⟨⟨h2, h3⟩, h1⟩
    rw [if_pos hn] at hf ⊢
    have h4 : ¬ StartsBlank l := hf l rfl
    rw [if_neg h3, if_neg h4, h l (by simp) h4, List.map_cons]
    show _ :: heard t true false r = _
    rw [heard_plain t r (fun x hx => h x (by simp [hx]))]

/-- If the first command is not indented, and no command has sub-commands that are not indented, every line with a command is in the
result, once and in order, however the lines are indented. -/
theorem C56_nothing_lost (t : Tables) (s : Str)
    (hh : ∀ l ∈ splitLines s, StartsBlank l → ¬ Heading (l.dropWhile (· = ' ')))
    (hm : ∀ l ∈ splitLines s, ¬ StartsBlank l → t.missingIndent.any (fun x => x l) = false)
    (hf : ∀ l, ((splitLines s).filter (fun l => decide (Meant l ∧ ¬ Heading l))).head? = some l → ¬ StartsBlank l) :
    allCommands (config2list t s) = ((splitLines s).filter (fun l => decide (Meant l ∧ ¬ Heading l))).map command := by
  rw [C56_heard t s hh, heard_start t _ hm hf]

/-- A section whose lines are not indented: all its lines are in the result too, and so is what follows the `!` that ends it,
unless it is indented. -/
theorem C56_block (t : Tables) (a b : List Str) (ha : ∀ l ∈ a, Meant l ∧ ¬ Heading l)
    (hf : ∃ l r, a = l :: r ∧ ¬ StartsBlank l) (hi : ∃ l ∈ a, ¬ StartsBlank l ∧ t.missingIndent.any (fun x => x l) = true)
    (hm : ∀ l ∈ b, ¬ StartsBlank l → t.missingIndent.any (fun x => x l) = false)
    (hb : ∀ l, (b.filter (fun l => decide (Meant l ∧ ¬ Heading l))).head? = some l → ¬ StartsBlank l) :
    heard t false false (a ++ ['!'] :: b) =
      a.map command ++ (b.filter (fun l => decide (Meant l ∧ ¬ Heading l))).map command := by
  have run : ∀ (a : List Str), (∀ l ∈ a, Meant l ∧ ¬ Heading l) → ∀ block : Bool,
      (block = true ∨ ∃ l ∈ a, ¬ StartsBlank l ∧ t.missingIndent.any (fun x => x l) = true) →
      heard t true block (a ++ ['!'] :: b) =
        a.map command ++ (b.filter (fun l => decide (Meant l ∧ ¬ Heading l))).map command := by
    intro a
    induction a with
    | nil =>
      intro _ block hbl
      have : block = true := hbl.resolve_right (by simp)
      subst this
      rw [List.nil_append, heard, if_neg (by decide), if_pos (by decide), heard_start t b hm hb]
      rfl
    | cons l r ih =>
      intro ha block hbl
      obtain ⟨⟨h1, h2⟩, h3⟩ := ha l (by simp)
      have ih := ih (fun x hx => ha x (by simp [hx]))
      rw [List.cons_append, heard, if_neg (by rintro (h | h); exacts [h3 h, h1 h]), if_neg (fun h => h2 (bang_remark h.2)),
        if_neg h2]
      by_cases h4 : StartsBlank l
      · rw [if_pos h4, if_pos rfl, ih]
        · rfl
        · rcases hbl with h | ⟨x, hx, h5, h6⟩
          · exact .inl h
          · rcases List.mem_cons.1 hx with rfl | hx
            · exact absurd h4 h5
            · exact .inr ⟨x, hx, h5, h6⟩
      · rw [if_neg h4, ih]
        · rfl
        · rcases hbl with h | ⟨x, hx, h5, h6⟩
          · exact .inl (by rw [h]; rfl)
          · rcases List.mem_cons.1 hx with rfl | hx
            · exact .inl (by rw [h6]; simp)
            · exact .inr ⟨x, hx, h5, h6⟩
  obtain ⟨l, r, rfl, hl⟩ := hf
  obtain ⟨⟨h1, h2⟩, h3⟩ := ha l (by simp)
  have hrun := run r (fun x hx => ha x (by simp [hx]))
  rw [List.cons_append, heard, if_neg (by rintro (h | h); exacts [h3 h, h1 h]), if_neg (by simp), if_neg h2, if_neg hl, hrun]
  · rfl
  · obtain ⟨x, hx, h5, h6⟩ := hi
    rcases List.mem_cons.1 hx with rfl | hx
    · exact .inl (by rw [h6]; rfl)
    · exact .inr ⟨x, hx, h5, h6⟩

namespace Demo

/-- Lines as a text. -/
def textOf (ls : List String) : Str := ls.flatMap (fun l => l.toList ++ ['\n'])

/-- Irregular indentation, a remark, a heading. -/
def oddText : Str := textOf ["Building configuration...", "ip dhcp class A", "   relay agent", " ! x", "  hex 01", "     hex 02", "",
  "\tend", "b  "]

example : (∀ l ∈ splitLines oddText, StartsBlank l → ¬ Heading (l.dropWhile (· = ' '))) ∧
    (∀ l ∈ splitLines oddText, ¬ StartsBlank l → ciscoTables.missingIndent.any (fun x => x l) = false) ∧
    (∀ l, ((splitLines oddText).filter (fun l => decide (Meant l ∧ ¬ Heading l))).head? = some l → ¬ StartsBlank l) ∧
    allCommands (config2list ciscoTables oddText) =
      ["ip dhcp class A".toList, "relay agent".toList, "hex 01".toList, "hex 02".toList, "\tend".toList, "b".toList] := by
  refine ⟨by decide +kernel, by decide +kernel, ?_, by decide +kernel⟩
  intro l hl
  have : ((splitLines oddText).filter (fun l => decide (Meant l ∧ ¬ Heading l))).head? = some "ip dhcp class A".toList := by
    decide +kernel
  rw [this] at hl
  cases hl
  decide +kernel

example : let a := ["a".toList, "client x".toList, "key 1".toList]; let b := ["c".toList, " d".toList]
    (∀ l ∈ a, Meant l ∧ ¬ Heading l) ∧ (∃ l ∈ a, ¬ StartsBlank l ∧ ciscoTables.missingIndent.any (fun x => x l) = true) ∧
    heard ciscoTables false false (a ++ ['!'] :: b) = ["a".toList, "client x".toList, "key 1".toList, "c".toList, "d".toList] := by
  refine ⟨by decide +kernel, ⟨"client x".toList, by decide +kernel, by decide +kernel, by decide +kernel⟩, by decide +kernel⟩

/-- Indented lines before the first line that is not indented are lost, and so are indented lines after the `!` that ends a section
without indentation: texts that differ in them have no diff. -/
theorem C56_lost :
    config2list ciscoTables (textOf ["  a", "b"]) = config2list ciscoTables (textOf ["b"]) ∧
    config2list ciscoTables (textOf ["client x", "key 1", "!", " a", "b"]) =
      config2list ciscoTables (textOf ["client x", "key 1", "!", "b"]) := by
  decide +kernel

/-- An indented heading takes the lines below it with it. -/
theorem C56_heading : allCommands (config2list ciscoTables (textOf ["a", " Building configuration...", "   c", " d"])) =
    ["a".toList, "d".toList] := by
  decide +kernel

end Demo

end NcDiff.Running
