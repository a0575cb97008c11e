import Verif.Proof.Trailing
import Verif.Spec.DiffObject
/-!
# C89: headings, empty lines and remarks of a running-config do not count
-/

namespace NcDiff.Running

/-- Lines that never count can be left out of a text. -/
theorem C89_idle (t : Tables) {s s' : Str} (h : busyLines s = busyLines s') : config2list t s = config2list t s' := by
  rw [parse_busy, parse_busy, h]

/-- If there is no section whose lines are not indented, this goes for all remarks. -/
theorem C89_silent {t : Tables} {s s' : Str} (hs : NoBlocks t s) (hs' : NoBlocks t s') (h : spokenLines s = spokenLines s') :
    config2list t s = config2list t s' := by
  rw [parse_spoken hs, parse_spoken hs', h]

theorem answer_of_lists {t : Tables} {s1 s2 s1' s2' : Str}
    (h1 : config2list t (replaceCommands t s1) = config2list t (replaceCommands t s1'))
    (h2 : config2list t (replaceCommands t s2) = config2list t (replaceCommands t s2')) (k : Look) :
    answerFor t s1 s2 k = answerFor t s1' s2' k := by
  have hr : running2list t s1 s2 = running2list t s1' s2' := by
    unfold running2list
    rw [h1, h2]
  have hd : ∀ r, getDiff t s1 s2 r = getDiff t s1' s2' r := by
    intro r
    unfold getDiff
    rw [hr]
  cases k <;> simp only [answerFor, getCli, diffStr, diffBool, hd]

/-- All answers of a `RunningConfigDiff` (diff, commands, text and truth value, in both directions) are the same for texts that differ in lines that do not
count only. -/
theorem C89_answers (t : Tables) {s1 s2 s1' s2' : Str}
    (h1 : busyLines (replaceCommands t s1) = busyLines (replaceCommands t s1'))
    (h2 : busyLines (replaceCommands t s2) = busyLines (replaceCommands t s2')) (k : Look) :
    answerFor t s1 s2 k = answerFor t s1' s2' k :=
  answer_of_lists (C89_idle t h1) (C89_idle t h2) k

theorem C89_answers_silent {t : Tables} {s1 s2 s1' s2' : Str}
    (b1 : NoBlocks t (replaceCommands t s1)) (b2 : NoBlocks t (replaceCommands t s2))
    (b1' : NoBlocks t (replaceCommands t s1')) (b2' : NoBlocks t (replaceCommands t s2'))
    (h1 : spokenLines (replaceCommands t s1) = spokenLines (replaceCommands t s1'))
    (h2 : spokenLines (replaceCommands t s2) = spokenLines (replaceCommands t s2')) (k : Look) :
    answerFor t s1 s2 k = answerFor t s1' s2' k :=
  answer_of_lists (C89_silent b1 b1' h1) (C89_silent b2 b2' h2) k

/-- White space at the ends of lines does not count either. -/
theorem C89_trailing {t : Tables} {s s' : Str} (hs : ∀ l ∈ busyLines s, Steady t l) (hs' : ∀ l ∈ busyLines s', Steady t l)
    (h : (busyLines s).map rstrip = (busyLines s').map rstrip) : config2list t s = config2list t s' := by
  rw [parse_layout hs, parse_layout hs', h]

/-- With the tables of the code: all answers are the same for texts that differ in lines that do not count and in white space at the ends of lines only,
provided that no command is `client` and nothing else. -/
theorem C89_answers_trailing {s1 s2 s1' s2' : Str}
    (b : ∀ s ∈ [s1, s2, s1', s2'], ∀ l ∈ busyLines (replaceCommands ciscoTables s), command l ≠ "client".toList)
    (h1 : (busyLines (replaceCommands ciscoTables s1)).map rstrip = (busyLines (replaceCommands ciscoTables s1')).map rstrip)
    (h2 : (busyLines (replaceCommands ciscoTables s2)).map rstrip = (busyLines (replaceCommands ciscoTables s2')).map rstrip) (k : Look) :
    answerFor ciscoTables s1 s2 k = answerFor ciscoTables s1' s2' k :=
  answer_of_lists (C89_trailing (fun l hl => steady_cisco (b s1 (by simp) l hl)) (fun l hl => steady_cisco (b s1' (by simp) l hl)) h1)
    (C89_trailing (fun l hl => steady_cisco (b s2 (by simp) l hl)) (fun l hl => steady_cisco (b s2' (by simp) l hl)) h2) k

end NcDiff.Running

namespace NcDiff.Layout89

open Running

/-- As a device shows it, and without what does not count. -/
def shown : Str :=
  "Building configuration...\n\nCurrent configuration : 42 bytes\n!\n! Last change at 10:00\ninterface A\n ! remark\n  shutdown\n\n!\nhostname x\n% note\n!\nend\n".toList
def bare : Str := "interface A\n  shutdown\nhostname x\nend".toList
def other : Str := "interface A\n  mtu 9000\n!\nhostname x\nend".toList

/-- The two texts meet the condition for texts without sections that are not indented. -/
theorem shown_bare : spokenLines (replaceCommands ciscoTables shown) = spokenLines (replaceCommands ciscoTables bare) := by decide +kernel

theorem no_blocks : NoBlocks ciscoTables (replaceCommands ciscoTables shown) ∧ NoBlocks ciscoTables (replaceCommands ciscoTables bare) ∧
    NoBlocks ciscoTables (replaceCommands ciscoTables other) := by
  unfold NoBlocks
  decide +kernel

example (k : Look) : answerFor ciscoTables shown other k = answerFor ciscoTables bare other k :=
  C89_answers_silent no_blocks.1 no_blocks.2.2 no_blocks.2.1 no_blocks.2.2 shown_bare rfl k

/-- The answers are not trivial: there is a difference. -/
example : diffStr ciscoTables bare other = some "  interface A\n-   shutdown\n+   mtu 9000\n".toList := by decide +kernel

/-- A section whose lines are not indented, with remarks and empty lines. -/
def block : Str := "client a\n\n! remark\nport 1\n%x\n!\nhostname x\n".toList
def blockBare : Str := "client a\nport 1\n!\nhostname x".toList
/-- The same without the line that ends the section. -/
def blockOpen : Str := "client a\nport 1\nhostname x".toList

example (k : Look) : answerFor ciscoTables block other k = answerFor ciscoTables blockBare other k :=
  C89_answers ciscoTables (by decide +kernel) rfl k

/-- The line `!` that ends such a section does count: without it the next command is read as a part of the section. -/
theorem C89_end_of_block_counts : spokenLines blockBare = spokenLines blockOpen ∧
    config2list ciscoTables blockBare = [.mk "client a".toList (some [.mk "port 1".toList none .ctx]) .ctx, .mk "hostname x".toList none .ctx] ∧
    config2list ciscoTables blockOpen =
      [.mk "client a".toList (some [.mk "port 1".toList none .ctx, .mk "hostname x".toList none .ctx]) .ctx] ∧
    diffBool ciscoTables blockBare blockOpen = some true := by decide +kernel

/-- White space at the ends of lines, tabs and a carriage return among them. -/
def padded : Str := "client a  \n\n! remark\nport 1\t\n!  \nhostname x \r\n   \n".toList

example (k : Look) : answerFor ciscoTables padded other k = answerFor ciscoTables blockBare other k :=
  C89_answers_trailing (by decide +kernel) (by decide +kernel) rfl k

/-- A line `client` with nothing after it begins a section if there is a blank at its end, and none if there is not. -/
theorem C89_blank_after_client :
    config2list ciscoTables "client \nport 1".toList = [.mk "client".toList (some [.mk "port 1".toList none .ctx]) .ctx] ∧
    config2list ciscoTables "client\nport 1".toList = [.mk "client".toList none .ctx, .mk "port 1".toList none .ctx] := by decide +kernel

end NcDiff.Layout89
