import Verif.Proof.ReplaceLines
import Verif.Props.Width
/-!
# C91: the fixed replacements work line by line
-/

namespace NcDiff.Running

/-- What is replaced and what it is replaced by are parts of one line and not empty. -/
def LineTables (t : Tables) : Prop := ∀ p ∈ t.replacing, (WithinLine p.1 ∧ p.1 ≠ []) ∧ WithinLine p.2 ∧ p.2 ≠ []

/-- The lines of the text after the replacements are the lines of the text, each after the replacements: no line is lost, made, split or joined. -/
theorem C91_line_by_line {t : Tables} (h : LineTables t) (s : Str) :
    splitLines (replaceCommands t s) = (splitLines s).map (replaceCommands t) := by
  unfold replaceCommands
  unfold LineTables at h
  generalize t.replacing = ps at h
  induction ps generalizing s with
  | nil => simp
  | cons p ps ih =>
    obtain ⟨⟨h1, h2⟩, h3, h4⟩ := h p (by simp)
    simp only [List.foldl_cons]
    rw [ih _ (fun q hq => h q (by simp [hq])), replace_lines h1 h2 h3 h4 _ s (Nat.le_refl _), List.map_map]
    rfl

theorem line_tables_cisco : LineTables ciscoTables := by
  unfold LineTables WithinLine
  decide +kernel

/-- With the tables of the code. -/
theorem C91_cisco (s : Str) : splitLines (replaceCommands ciscoTables s) = (splitLines s).map (replaceCommands ciscoTables) :=
  C91_line_by_line line_tables_cisco s

/-- Texts with the same lines give the same answers, whatever ends the lines (line feed, carriage return and line feed, or any other line
boundary of Python), and whether or not there is one at the end. -/
theorem C91_line_ends {t : Tables} (h : LineTables t) {s1 s2 s1' s2' : Str} (h1 : splitLines s1 = splitLines s1')
    (h2 : splitLines s2 = splitLines s2') (k : Look) : answerFor t s1 s2 k = answerFor t s1' s2' k := by
  refine C89_answers t ?_ ?_ k <;> unfold busyLines
  · rw [C91_line_by_line h, C91_line_by_line h, h1]
  · rw [C91_line_by_line h, C91_line_by_line h, h2]

theorem replaceGo_none (old new : Str) : ∀ s : Str, ¬ old <:+: s → replaceGo old new 0 s = s
  | [], _ => by rw [replaceGo]
  | c :: r, h => by
    rw [replaceGo, if_neg, replaceGo_none old new r (fun k => h (k.trans (List.suffix_cons c r).isInfix))]
    intro hp
    exact h (List.isPrefixOf_iff_prefix.1 hp).isInfix

/-- Lines in which nothing is to be replaced stay as they are. -/
theorem C91_other_lines {t : Tables} {l : Str} (h : ∀ p ∈ t.replacing, ¬ p.1 <:+: l) : replaceCommands t l = l := by
  unfold replaceCommands
  generalize t.replacing = ps at h
  induction ps with
  | nil => rfl
  | cons p ps ih =>
    rw [List.foldl_cons]
    have e : replaceAll p.1 p.2 l = l := replaceGo_none _ _ l (h p (by simp))
    rw [e]
    exact ih (fun q hq => h q (by simp [hq]))

/-- If nothing is to be replaced, what does not count is decided by the texts alone: headings, empty lines, remarks, and the width of the indentation. -/
theorem C91_texts {t : Tables} {l1 l2 : List Item} {s1 s2 s1' s2' : Str} (h : ∀ s ∈ [s1, s2, s1', s2'], ∀ p ∈ t.replacing, ¬ p.1 <:+: s)
    (h1 : WrittenAs t l1 (spokenLines s1)) (h1' : WrittenAs t l1 (spokenLines s1'))
    (h2 : WrittenAs t l2 (spokenLines s2)) (h2' : WrittenAs t l2 (spokenLines s2')) (k : Look) :
    answerFor t s1 s2 k = answerFor t s1' s2' k := by
  have e := fun s hs => C91_other_lines (h s hs)
  exact C90_answers (by rw [e s1 (by simp)]; exact h1) (by rw [e s1' (by simp)]; exact h1') (by rw [e s2 (by simp)]; exact h2)
    (by rw [e s2' (by simp)]; exact h2') k

end NcDiff.Running

namespace NcDiff.Replace91

open Running

def unix : Str := "router lisp\n locator-set A\n  exit-locator-set\n exit-router-lisp\n".toList
def windows : Str := "router lisp\r\n locator-set A\r\n  exit-locator-set\r\n exit-router-lisp".toList

/-- Two texts with other ends of lines. -/
example (k : Look) : answerFor ciscoTables unix unix k = answerFor ciscoTables windows unix k :=
  C91_line_ends line_tables_cisco (by decide +kernel) rfl k

/-- The replacements do something here. -/
example : splitLines (replaceCommands ciscoTables windows) =
    ["router lisp".toList, " locator-set A".toList, "  exit".toList, " exit".toList] := by decide +kernel

example : replaceCommands ciscoTables "interface A".toList = "interface A".toList := C91_other_lines (by decide +kernel)

/-- The texts of C90 have nothing to replace. -/
example (k : Look) : answerFor ciscoTables Width90.narrow Width90.wide k = answerFor ciscoTables Width90.wide Width90.narrow k := by
  have e : ∀ s ∈ [Width90.narrow, Width90.wide, Width90.wide, Width90.narrow], ∀ p ∈ ciscoTables.replacing, ¬ p.1 <:+: s := by decide +kernel
  have n := Width90.narrow_written
  have w := Width90.wide_written
  rw [C91_other_lines (e Width90.narrow (by simp))] at n
  rw [C91_other_lines (e Width90.wide (by simp))] at w
  exact C91_texts e n w w n k

/-- What is replaced need not be a whole word: a description that contains it is changed as well, so two texts that differ in it have no
difference. -/
theorem C91_inside_a_word : diffBool ciscoTables "interface A\n description exit-locator-set-1\n".toList
    "interface A\n description exit-1\n".toList = some false ∧
    splitLines "interface A\n description exit-locator-set-1\n".toList ≠ splitLines "interface A\n description exit-1\n".toList := by
  decide +kernel

end NcDiff.Replace91
