import Verif.Proof.PasteTable
import Verif.Props.Running
/-!
# Properties C25 and C36: running-config text and the effect of the commands
-/

namespace NcDiff.Running

/-! ## C25 -/

/-- C25: rendering nested lines as text, two blanks for every level, and parsing the text gives the
same nested lines. -/
theorem C25_text_parses_back (t : Tables) (l : List Item) (h : GoodText t l) :
    config2list t (unlines (textLines 0 l)) = l :=
  config2list_unlines h

/-- C25 for the printer of the code: a section printed below its header line parses to the section. -/
theorem C25_printed_section_parses_back (t : Tables) (k : Str) (s : List Item) (hk : GoodLine t k)
    (hs : GoodText t s) (hne : s ≠ []) :
    config2list t (k ++ '\n' :: list2config none s) = [.mk k (some s) .ctx] := by
  rw [list2config_eq hs]
  have := config2list_unlines (GoodText.node hk hne hs .nil)
  simpa [textLines, itemLines, subLines, unlines] using this

/-! ## C36 -/

theorem cliText_eq {t : Tables} {on : Str → Prop} {l1 l2 d : List Item} (hp : PasteOk t on l1 l2) (hd : compare l1 l2 = some d)
    (hfr : PrefixFree t d) :
    (compare l1 l2).map (fun l => if l = [] then [] else
      if (list2cli t l).1 ≠ [] then
        if (list2cli t l).2 ≠ [] then (list2cli t l).2 ++ "\n!\n".toList ++ (list2cli t l).1 else (list2cli t l).1
      else (list2cli t l).2) = some (cliText (list2cli t d)) := by
  obtain ⟨d', hd', hf⟩ := compare_faithful l1 l2
  rw [hd] at hd'
  cases hd'
  rw [hd]
  simp only [Option.map_some, Option.some.injEq]
  by_cases h : d = []
  · rw [if_pos h, (textOk (diffOk_of hp hf hfr)).1]
    subst h
    rfl
  · rw [if_neg h]; rfl

/-- C36: typing the commands of the diff into a device that has the lines of the first config leaves exactly the lines of
the second, and the reverse commands lead back.  On the device, `no X` removes `X`, a short negation such as `no ip
address` removes every line it is short for, and a command with a head such as `description` replaces the other lines
with this head.  Some commands `on` are in force unless they are negated: of these the config has the line `no X` or
nothing.  Conditions: no section repeats a line or has two lines of which one replaces the other or is removed by
the negation of the other; in the diff no command starts another one, neither of the negations nor of the others, and no
removed line starts an added line that does not replace it. -/
theorem C36_commands_reach_target (t : Tables) (on : Str → Prop) (s1 s2 : Str)
    (h : PasteOk t on (config2list t (replaceCommands t s1)) (config2list t (replaceCommands t s2))) :
    (∀ d, getDiff t s1 s2 false = some d → PrefixFree t d → ∃ cli, getCli t s1 s2 false = some cli ∧ ∀ p,
      typeAll (deviceOf t on) (config2list t cli) (hasPath (config2list t (replaceCommands t s1))) p ↔
        hasPath (config2list t (replaceCommands t s2)) p) ∧
    (∀ d, getDiff t s1 s2 true = some d → PrefixFree t d → ∃ cli, getCli t s1 s2 true = some cli ∧ ∀ p,
      typeAll (deviceOf t on) (config2list t cli) (hasPath (config2list t (replaceCommands t s2))) p ↔
        hasPath (config2list t (replaceCommands t s1)) p) ∧
    (∃ d, getDiff t s1 s2 false = some d) ∧ ∃ d, getDiff t s1 s2 true = some d := by
  generalize e1 : config2list t (replaceCommands t s1) = l1 at *
  generalize e2 : config2list t (replaceCommands t s2) = l2 at *
  have hsh := C21_orderless_only_moves t l1 l2 0 h.distinct1 h.distinct2
  have h' := h.shuffled hsh
  unfold getCli getDiff running2list
  rw [e1, e2]
  simp only [handleSibling_id h'.lines1, handleSibling_id h'.lines2, if_true, Bool.false_eq_true, if_false]
  generalize handleOrderless t l1 l2 0 = l1' at *
  have hst : hasPath l1 = hasPath l1' := by
    funext p; exact propext (hsh.hasPath p)
  rw [hst]
  refine ⟨?_, ?_, ?_, ?_⟩
  · intro d hd hf
    exact ⟨_, cliText_eq h' hd hf, fun p => paste_list h' hd hf p⟩
  · intro d hd hf
    exact ⟨_, cliText_eq h'.symm hd hf, fun p => paste_list h'.symm hd hf p⟩
  · obtain ⟨d, hd, _⟩ := compare_faithful l1' l2
    exact ⟨d, hd⟩
  · obtain ⟨d, hd, _⟩ := compare_faithful l2 l1'
    exact ⟨d, hd⟩

/-! ## Concrete cases -/

namespace Demo

/-- Executable `GoodLine`. -/
def goodLineB (t : Tables) (k : Str) : Bool :=
  (match k with
    | [] => false
    | c :: _ => !isSpace c && decide (c ≠ '!') && decide (c ≠ '%')) &&
  decide (rstrip k = k) && k.all (fun c => !isBreak c) &&
  !("Building configuration".toList.isPrefixOf k) && !("Current configuration".toList.isPrefixOf k) &&
  t.missingIndent.all (fun r => !r k)

theorem goodLineB_sound {t : Tables} {k : Str} (h : goodLineB t k = true) : GoodLine t k := by
  unfold goodLineB at h
  simp only [Bool.and_eq_true, decide_eq_true_eq, List.all_eq_true, Bool.not_eq_true'] at h
  obtain ⟨⟨⟨⟨⟨h1, h2⟩, h3⟩, h4⟩, h5⟩, h6⟩ := h
  refine ⟨?_, h2, h3, ⟨?_, ?_⟩, h6⟩
  · cases k with
    | nil => cases h1
    | cons c r =>
      simp only [Bool.and_eq_true, Bool.not_eq_true', decide_eq_true_eq] at h1
      exact ⟨c, r, rfl, h1.1.1, h1.1.2, h1.2⟩
  · rw [← List.isPrefixOf_iff_prefix, h4]; simp
  · rw [← List.isPrefixOf_iff_prefix, h5]; simp

/-- Executable `PasteLine` for the tables of the code. -/
def pasteLineB (k : Str) : Bool :=
  goodLineB ciscoTables k && goodLineB ciscoTables (negation ciscoTables k) &&
  decide (k.head? ≠ some '-') && decide (k.head? ≠ some '+') && !("no ".toList.isPrefixOf k) &&
  "no ".toList.isPrefixOf (negation ciscoTables k) &&
  ciscoTables.shortNo.all (fun s => !(s.isPrefixOf k)) &&
  (found ciscoTables k).all (fun m => decide (lstrip m = strip m ++ [' '])) &&
  ciscoTables.sibling.all (fun r => !r k)

theorem pasteLineB_sound {k : Str} (h : pasteLineB k = true) : PasteLine ciscoTables k := by
  unfold pasteLineB at h
  simp only [Bool.and_eq_true] at h
  obtain ⟨⟨⟨⟨⟨⟨⟨⟨h1, h2⟩, h3⟩, h4⟩, h5⟩, h6⟩, h7⟩, h8⟩, h9⟩ := h
  refine ⟨goodLineB_sound h1, goodLineB_sound h2, ?_, ?_, List.isPrefixOf_iff_prefix.1 h6, ?_, cisco_keep, ?_, ?_⟩
  · intro r
    constructor
    · rintro rfl; simp at h3
    · rintro rfl; simp at h4
  · rw [← List.isPrefixOf_iff_prefix]; rw [Bool.not_eq_true'] at h5; rw [h5]; simp
  · intro s hs
    have := List.all_eq_true.1 h7 s hs
    rw [Bool.not_eq_true'] at this
    rw [← List.isPrefixOf_iff_prefix, this]
    simp
  · intro m hm
    exact of_decide_eq_true (List.all_eq_true.1 h8 m hm)
  · intro r hr
    have := List.all_eq_true.1 h9 r hr
    simpa using this

/-- Commands that are in force unless they are negated, as a list. -/
def onOf (L : List Str) : Str → Prop := (· ∈ L)

/-- Executable `ToggleLine` for the tables of the code. -/
def toggleB (L : List Str) (k : Str) : Bool :=
  goodLineB ciscoTables k && goodLineB ciscoTables (k.drop 3) && "no ".toList.isPrefixOf k &&
  !("no ".toList.isPrefixOf (k.drop 3)) && decide (k.drop 3 ∈ L) && decide ((k.drop 3).head? ≠ some '-') &&
  decide ((k.drop 3).head? ≠ some '+') &&
  ciscoTables.shortNo.all (fun s => decide (strip s ≠ k) && decide (strip s ≠ "no ".toList ++ k) &&
    !(s.isPrefixOf k) && !(s.isPrefixOf (k.drop 3)) && !(s.isPrefixOf ("no ".toList ++ k))) &&
  (found ciscoTables k).isEmpty && (found ciscoTables (k.drop 3)).isEmpty && ciscoTables.sibling.all (fun r => !r k)

theorem notPrefix {a b : Str} (h : a.isPrefixOf b = false) : ¬ a <+: b := by
  rw [← List.isPrefixOf_iff_prefix, h]; simp

theorem toggleB_sound {L : List Str} {k : Str} (h : toggleB L k = true) : ToggleLine ciscoTables (onOf L) k := by
  unfold toggleB at h
  simp only [Bool.and_eq_true] at h
  obtain ⟨⟨⟨⟨⟨⟨⟨⟨⟨⟨h1, h2⟩, h3⟩, h4⟩, h5⟩, h6⟩, h7⟩, h8⟩, h9⟩, h10⟩, h11⟩ := h
  refine ⟨goodLineB_sound h1, goodLineB_sound h2, List.isPrefixOf_iff_prefix.1 h3, notPrefix (by simpa using h4),
    (of_decide_eq_true h5 : k.drop 3 ∈ L), ?_, ?_, ⟨List.isEmpty_iff.1 h9, List.isEmpty_iff.1 h10⟩, cisco_free (List.isEmpty_iff.1 h10), ?_⟩
  · intro r
    constructor
    · intro e; rw [e] at h6; simp at h6
    · intro e; rw [e] at h7; simp at h7
  · intro s hs
    have := List.all_eq_true.1 h8 s hs
    simp only [Bool.and_eq_true, Bool.not_eq_true'] at this
    exact ⟨of_decide_eq_true this.1.1.1.1, of_decide_eq_true this.1.1.1.2, notPrefix this.1.1.2, notPrefix this.1.2,
      notPrefix this.2⟩
  · intro r hr
    have := List.all_eq_true.1 h11 r hr
    simpa using this

/-- Executable `DeviceLine` for the tables of the code. -/
def deviceLineB (L : List Str) (k : Str) : Bool :=
  (pasteLineB k && decide (k ∉ L) && decide ((negation ciscoTables k).drop 3 ∉ L)) || toggleB L k

theorem deviceLineB_sound {L : List Str} {k : Str} (h : deviceLineB L k = true) : DeviceLine ciscoTables (onOf L) k := by
  unfold deviceLineB at h
  simp only [Bool.or_eq_true, Bool.and_eq_true] at h
  rcases h with h | h
  · exact .line (pasteLineB_sound h.1.1) (of_decide_eq_true h.1.2 : k ∉ L)
      (of_decide_eq_true h.2 : (negation ciscoTables k).drop 3 ∉ L)
  · exact .toggle (toggleB_sound h)

/-- Executable `GoodText`. -/
def goodTextB (t : Tables) : Nat → List Item → Bool
  | 0, l => l.isEmpty
  | n + 1, l => l.all (fun i => decide (i.info = .ctx) && goodLineB t i.key && match i.sub with
      | none => true
      | some s => !s.isEmpty && goodTextB t n s)

theorem goodTextB_sound {t : Tables} : ∀ n l, goodTextB t n l = true → GoodText t l
  | 0, l, h => by
    have : l = [] := by simpa [goodTextB] using h
    subst this; exact .nil
  | n + 1, l, h => by
    unfold goodTextB at h
    rw [List.all_eq_true] at h
    apply goodText_of_mem
    intro i hi
    have := h i hi
    simp only [Bool.and_eq_true, decide_eq_true_eq] at this
    refine ⟨this.1.1, goodLineB_sound this.1.2, ?_⟩
    intro s hs
    rw [hs] at this
    simp only [Bool.and_eq_true, Bool.not_eq_true', List.isEmpty_eq_false_iff] at this
    exact ⟨this.2.1, goodTextB_sound n s this.2.2⟩

/-- Executable `AllLines`. -/
def allLinesB (f : Str → Bool) : Nat → List Item → Bool
  | 0, l => l.isEmpty
  | n + 1, l => l.all (fun i => f i.key && match i.sub with
      | none => true
      | some s => allLinesB f n s)

theorem allLinesB_sound {P : Str → Prop} {f : Str → Bool} (hf : ∀ k, f k = true → P k) :
    ∀ n l, allLinesB f n l = true → AllLines P l
  | 0, l, h => by
    have : l = [] := by simpa [allLinesB] using h
    subst this; exact .mk (by simp) (by simp)
  | n + 1, l, h => by
    unfold allLinesB at h
    rw [List.all_eq_true] at h
    refine .mk (fun i hi => hf _ ?_) (fun i hi s hs => ?_)
    · have := h i hi
      rw [Bool.and_eq_true] at this
      exact this.1
    · have := h i hi
      rw [Bool.and_eq_true, hs] at this
      exact allLinesB_sound hf n s this.2

/-- Executable `sameHead`. -/
def sameHeadB (t : Tables) (a b : Str) : Bool := (found t a).any fun m => (found t b).any fun n => decide (strip m = strip n)

theorem sameHeadB_iff {t : Tables} {a b : Str} : sameHeadB t a b = true ↔ sameHead t a b := by
  simp only [sameHeadB, sameHead, List.any_eq_true, decide_eq_true_eq]

/-- Executable `Device.removes`. -/
def removesB (t : Tables) (c k : Str) : Bool := decide (c = "no ".toList ++ k) ||
  t.shortNo.any fun s => decide (strip s = c) && s.isPrefixOf ("no ".toList ++ k)

theorem removesB_iff {t : Tables} {on : Str → Prop} {c k : Str} : removesB t c k = true ↔ (deviceOf t on).removes c k := by
  simp only [removesB, Device.removes, deviceOf, Bool.or_eq_true, decide_eq_true_eq, List.any_eq_true, Bool.and_eq_true,
    List.isPrefixOf_iff_prefix]

/-- Executable `PrefixFree`. -/
def freeB (t : Tables) : Nat → List Item → Bool
  | 0, d => d.isEmpty
  | n + 1, d =>
    d.all (fun i => d.all (fun j =>
      (!(i.marked && j.marked && (i.command t).isPrefixOf (j.command t)) || decide (i.command t = j.command t)) &&
      (!(decide (i.info = .del) && decide (j.info = .add) && i.key.isPrefixOf j.key) ||
        (decide (i.key = j.key) || sameHeadB t j.key i.key)))) &&
    d.all (fun i => match i.sub with
      | none => true
      | some s => decide (i.info ≠ .ctx) || freeB t n s)

theorem freeB_sound {t : Tables} : ∀ n d, freeB t n d = true → PrefixFree t d
  | 0, d, h => by
    have : d = [] := by simpa [freeB] using h
    subst this
    exact .mk (by simp) (by simp) (by simp)
  | n + 1, d, h => by
    unfold freeB at h
    rw [Bool.and_eq_true] at h
    have key := fun i hi j hj => List.all_eq_true.1 (List.all_eq_true.1 h.1 i hi) j hj
    refine .mk ?_ ?_ ?_
    · intro i hi j hj h1 h2 _ hp
      have := (Bool.and_eq_true _ _ ▸ key i hi j hj : _ ∧ _).1
      rw [h1, h2, List.isPrefixOf_iff_prefix.2 hp] at this
      exact of_decide_eq_true (by simpa using this)
    · intro i hi j hj h1 h2 hp
      have := (Bool.and_eq_true _ _ ▸ key i hi j hj : _ ∧ _).2
      rw [h1, h2, List.isPrefixOf_iff_prefix.2 hp] at this
      simp only [decide_true, Bool.and_self, Bool.not_true, Bool.false_or, Bool.or_eq_true, decide_eq_true_eq] at this
      exact this.imp id sameHeadB_iff.1
    · intro i hi h1 s hs
      have := List.all_eq_true.1 h.2 i hi
      rw [hs, h1] at this
      exact freeB_sound n _ (by simpa using this)

theorem free_of {t : Tables} {o : Option (List Item)} (n : Nat) (h : o.any (freeB t n) = true) : ∃ d, o = some d ∧ PrefixFree t d := by
  cases o with
  | none => cases h
  | some d => exact ⟨d, rfl, freeB_sound n d h⟩

/-- Executable `Single`. -/
def singleB (t : Tables) : Nat → List Item → Bool
  | 0, l => l.isEmpty
  | n + 1, l =>
    l.all (fun i => l.all (fun j => decide (i.key = j.key) ||
      (!sameHeadB t i.key j.key && !removesB t (negation t i.key) j.key))) &&
    l.all (fun i => ((found t i.key).isEmpty && !("no ".toList.isPrefixOf i.key) || i.sub.isNone) && match i.sub with
      | none => true
      | some s => singleB t n s)

theorem singleB_sound {t : Tables} {on : Str → Prop} : ∀ n l, singleB t n l = true → Single t on l
  | 0, l, h => by
    have : l = [] := by simpa [singleB] using h
    subst this
    exact .mk (by simp) (by simp) (by simp) (by simp)
  | n + 1, l, h => by
    unfold singleB at h
    rw [Bool.and_eq_true] at h
    have key := fun i hi j hj => List.all_eq_true.1 (List.all_eq_true.1 h.1 i hi) j hj
    simp only [Bool.or_eq_true, decide_eq_true_eq, Bool.and_eq_true, Bool.not_eq_true'] at key
    have key2 := fun i hi => List.all_eq_true.1 h.2 i hi
    simp only [Bool.and_eq_true, Bool.or_eq_true, List.isEmpty_iff, Option.isNone_iff_eq_none] at key2
    refine .mk ?_ ?_ ?_ ?_
    · intro i hi j hj hs
      rcases key i hi j hj with h | ⟨h, _⟩
      · exact h
      · rw [sameHeadB_iff.2 hs] at h; cases h
    · intro i hi j hj hs
      rcases key i hi j hj with h | ⟨_, h⟩
      · exact h
      · rw [removesB_iff.2 hs] at h; cases h
    · intro i hi hf
      rcases (key2 i hi).1 with h | h
      · rcases hf with hf | hf
        · exact absurd h.1 hf
        · exact absurd hf (notPrefix (by simpa using h.2))
      · exact h
    · intro i hi s hs
      have := (key2 i hi).2
      rw [hs] at this
      exact singleB_sound n s this

theorem pasteOk_of (L : List Str) {l1 l2 : List Item} (n : Nat) (h : (goodTextB ciscoTables n l1 && goodTextB ciscoTables n l2 &&
    allLinesB (deviceLineB L) n l1 && allLinesB (deviceLineB L) n l2 && distinctB n l1 && distinctB n l2 &&
    singleB ciscoTables n l1 && singleB ciscoTables n l2) = true) : PasteOk ciscoTables (onOf L) l1 l2 := by
  simp only [Bool.and_eq_true] at h
  obtain ⟨⟨⟨⟨⟨⟨⟨h1, h2⟩, h3⟩, h4⟩, h5⟩, h6⟩, h7⟩, h8⟩ := h
  exact ⟨goodTextB_sound n _ h1, goodTextB_sound n _ h2, allLinesB_sound (fun _ => deviceLineB_sound) n _ h3,
    allLinesB_sound (fun _ => deviceLineB_sound) n _ h4, distinctB_sound n _ h5, distinctB_sound n _ h6,
    singleB_sound n _ h7, singleB_sound n _ h8, cisco_heads⟩

/-- Two running-configs that differ at three levels, with orderless lines in a different order and
an unchanged line that starts with another line. -/
def paste1 : Str := "hostname r1\nntp server 1.1.1.1\nntp server 2.2.2.2\ninterface Loopback0\n mtu 1500\nvlan 1\nvlan 10\nrouter bgp 1\n address-family ipv4\n  maximum-paths 2\n  network a\n bgp log\nend\n".toList
def lines1 : List Item := [.mk "hostname r1".toList none .ctx, .mk "ntp server 1.1.1.1".toList none .ctx, .mk "ntp server 2.2.2.2".toList none .ctx, .mk "interface Loopback0".toList (some [.mk "mtu 1500".toList none .ctx]) .ctx, .mk "vlan 1".toList none .ctx, .mk "vlan 10".toList none .ctx, .mk "router bgp 1".toList (some [.mk "address-family ipv4".toList (some [.mk "maximum-paths 2".toList none .ctx, .mk "network a".toList none .ctx]) .ctx, .mk "bgp log".toList none .ctx]) .ctx, .mk "end".toList none .ctx]
theorem lines1_eq : config2list ciscoTables (replaceCommands ciscoTables paste1) = lines1 := by decide +kernel
def paste2 : Str := "hostname r2\nntp server 2.2.2.2\nntp server 1.1.1.1\nvlan 1\n name a\nvlan 10\nrouter bgp 1\n address-family ipv4\n  maximum-paths 4\n  network a\n bgp log\n timers bgp 1 3\nend\n".toList
def lines2 : List Item := [.mk "hostname r2".toList none .ctx, .mk "ntp server 2.2.2.2".toList none .ctx, .mk "ntp server 1.1.1.1".toList none .ctx, .mk "vlan 1".toList (some [.mk "name a".toList none .ctx]) .ctx, .mk "vlan 10".toList none .ctx, .mk "router bgp 1".toList (some [.mk "address-family ipv4".toList (some [.mk "maximum-paths 4".toList none .ctx, .mk "network a".toList none .ctx]) .ctx, .mk "bgp log".toList none .ctx, .mk "timers bgp 1 3".toList none .ctx]) .ctx, .mk "end".toList none .ctx]
theorem lines2_eq : config2list ciscoTables (replaceCommands ciscoTables paste2) = lines2 := by decide +kernel

theorem paste_ok : PasteOk ciscoTables (onOf []) (config2list ciscoTables (replaceCommands ciscoTables paste1))
    (config2list ciscoTables (replaceCommands ciscoTables paste2)) :=
  by rw [lines1_eq, lines2_eq]; exact pasteOk_of [] 5 (by decide +kernel)

example : ∃ cli, getCli ciscoTables paste1 paste2 false = some cli ∧ ∀ p,
    typeAll (deviceOf ciscoTables (onOf [])) (config2list ciscoTables cli) (hasPath (config2list ciscoTables (replaceCommands ciscoTables paste1))) p ↔
      hasPath (config2list ciscoTables (replaceCommands ciscoTables paste2)) p :=
  let ⟨_, h1, h2⟩ := free_of (t := ciscoTables) (o := getDiff ciscoTables paste1 paste2 false) 5 (by decide +kernel)
  (C36_commands_reach_target ciscoTables (onOf []) paste1 paste2 paste_ok).1 _ h1 h2

example : ∃ cli, getCli ciscoTables paste1 paste2 true = some cli ∧ ∀ p,
    typeAll (deviceOf ciscoTables (onOf [])) (config2list ciscoTables cli) (hasPath (config2list ciscoTables (replaceCommands ciscoTables paste2))) p ↔
      hasPath (config2list ciscoTables (replaceCommands ciscoTables paste1)) p :=
  let ⟨_, h1, h2⟩ := free_of (t := ciscoTables) (o := getDiff ciscoTables paste1 paste2 true) 5 (by decide +kernel)
  (C36_commands_reach_target ciscoTables (onOf []) paste1 paste2 paste_ok).2.1 _ h1 h2

/-- The commands of that case. -/
example : getCli ciscoTables paste1 paste2 false = some
    "router bgp 1\n  address-family ipv4\n    no maximum-paths 2\nno interface Loopback0\nno hostname r1\n!\nhostname r2\nvlan 1\n  name a\nrouter bgp 1\n  address-family ipv4\n    maximum-paths 4\n  timers bgp 1 3".toList := by
  decide +kernel

/-- Two interfaces, and lines that replace one another: of the descriptions and addresses some are changed, some added and
some removed; a line with a short negation is changed. -/
def paste3 : Str := "interface A\n description o\n ip address 1 2\ninterface B\n ip address 3 4\nline 0\n transport input s\n".toList
def lines3 : List Item := [.mk "interface A".toList (some [.mk "description o".toList none .ctx, .mk "ip address 1 2".toList none .ctx]) .ctx, .mk "interface B".toList (some [.mk "ip address 3 4".toList none .ctx]) .ctx, .mk "line 0".toList (some [.mk "transport input s".toList none .ctx]) .ctx]
theorem lines3_eq : config2list ciscoTables (replaceCommands ciscoTables paste3) = lines3 := by decide +kernel
def paste4 : Str := "interface A\n description n\n ip address 1 3\ninterface B\n description m\nline 0\n transport input t\n".toList
def lines4 : List Item := [.mk "interface A".toList (some [.mk "description n".toList none .ctx, .mk "ip address 1 3".toList none .ctx]) .ctx, .mk "interface B".toList (some [.mk "description m".toList none .ctx]) .ctx, .mk "line 0".toList (some [.mk "transport input t".toList none .ctx]) .ctx]
theorem lines4_eq : config2list ciscoTables (replaceCommands ciscoTables paste4) = lines4 := by decide +kernel

theorem paste_ok' : PasteOk ciscoTables (onOf []) (config2list ciscoTables (replaceCommands ciscoTables paste3))
    (config2list ciscoTables (replaceCommands ciscoTables paste4)) :=
  by rw [lines3_eq, lines4_eq]; exact pasteOk_of [] 3 (by decide +kernel)

example : ∃ cli, getCli ciscoTables paste3 paste4 false = some cli ∧ ∀ p,
    typeAll (deviceOf ciscoTables (onOf [])) (config2list ciscoTables cli)
      (hasPath (config2list ciscoTables (replaceCommands ciscoTables paste3))) p ↔
      hasPath (config2list ciscoTables (replaceCommands ciscoTables paste4)) p :=
  let ⟨_, h1, h2⟩ := free_of (t := ciscoTables) (o := getDiff ciscoTables paste3 paste4 false) 3 (by decide +kernel)
  (C36_commands_reach_target ciscoTables (onOf []) paste3 paste4 paste_ok').1 _ h1 h2

example : getCli ciscoTables paste3 paste4 false = some
    "line 0\n  no transport input\ninterface B\n  no ip address\ninterface A\n  no ip address\n!\ninterface A\n  description n\n  ip address 1 3\ninterface B\n  description m\nline 0\n  transport input t".toList := by
  decide +kernel

/-- Commands that are in force unless they are negated: negations are removed and added, at the top, in a changed
interface, and in a new one. -/
def paste5 : Str := "no ip routing\ninterface A\n no ip redirects\n mtu 9\n".toList
def lines5 : List Item := [.mk "no ip routing".toList none .ctx, .mk "interface A".toList (some [.mk "no ip redirects".toList none .ctx, .mk "mtu 9".toList none .ctx]) .ctx]
theorem lines5_eq : config2list ciscoTables (replaceCommands ciscoTables paste5) = lines5 := by decide +kernel
def paste6 : Str := "interface A\n mtu 9\n no keepalive\ninterface B\n no keepalive\n".toList
def lines6 : List Item := [.mk "interface A".toList (some [.mk "mtu 9".toList none .ctx, .mk "no keepalive".toList none .ctx]) .ctx, .mk "interface B".toList (some [.mk "no keepalive".toList none .ctx]) .ctx]
theorem lines6_eq : config2list ciscoTables (replaceCommands ciscoTables paste6) = lines6 := by decide +kernel
def onList : List Str := ["ip routing".toList, "ip redirects".toList, "keepalive".toList]

theorem paste_ok_on : PasteOk ciscoTables (onOf onList) (config2list ciscoTables (replaceCommands ciscoTables paste5))
    (config2list ciscoTables (replaceCommands ciscoTables paste6)) :=
  by rw [lines5_eq, lines6_eq]; exact pasteOk_of onList 3 (by decide +kernel)

example : ∃ cli, getCli ciscoTables paste5 paste6 false = some cli ∧ ∀ p,
    typeAll (deviceOf ciscoTables (onOf onList)) (config2list ciscoTables cli)
      (hasPath (config2list ciscoTables (replaceCommands ciscoTables paste5))) p ↔
      hasPath (config2list ciscoTables (replaceCommands ciscoTables paste6)) p :=
  let ⟨_, h1, h2⟩ := free_of (t := ciscoTables) (o := getDiff ciscoTables paste5 paste6 false) 3 (by decide +kernel)
  (C36_commands_reach_target ciscoTables (onOf onList) paste5 paste6 paste_ok_on).1 _ h1 h2

example : getCli ciscoTables paste5 paste6 false = some
    "interface A\n  no keepalive\n!\nip routing\ninterface A\n  ip redirects\ninterface B\n  no keepalive".toList := by
  decide +kernel

example : config2list ciscoTables (unlines (textLines 0 (config2list ciscoTables paste1))) =
    config2list ciscoTables paste1 :=
  C25_text_parses_back _ _ (goodTextB_sound 5 _ (by decide +kernel))

example : config2list ciscoTables ("header".toList ++ '\n' :: list2config none (config2list ciscoTables paste1)) =
    [.mk "header".toList (some (config2list ciscoTables paste1)) .ctx] :=
  C25_printed_section_parses_back _ _ _ (goodLineB_sound (by decide +kernel)) (goodTextB_sound 5 _ (by decide +kernel))
    (by decide +kernel)

/-- C36 does not hold when a removed line starts another one: removing `vlan 1` and `vlan 10` prints
only the first command, and `vlan 10` stays. -/
theorem C36_false_with_common_prefix :
    getCli ciscoTables "vlan 1\nvlan 10\nend\n".toList "end\n".toList false = some "no vlan 1".toList ∧
    hasPath (config2list ciscoTables "vlan 1\nvlan 10\nend\n".toList) ["vlan 10".toList] ∧
    ¬ hasPath (config2list ciscoTables "end\n".toList) ["vlan 10".toList] ∧
    typeAll (deviceOf ciscoTables (onOf [])) (config2list ciscoTables "no vlan 1".toList)
      (hasPath (config2list ciscoTables "vlan 1\nvlan 10\nend\n".toList)) ["vlan 10".toList] := by
  have e1 : config2list ciscoTables "vlan 1\nvlan 10\nend\n".toList =
      [.mk "vlan 1".toList none .ctx, .mk "vlan 10".toList none .ctx, .mk "end".toList none .ctx] := by decide +kernel
  have e2 : config2list ciscoTables "end\n".toList = [.mk "end".toList none .ctx] := by decide +kernel
  have e3 : config2list ciscoTables "no vlan 1".toList = [.mk "no vlan 1".toList none .ctx] := by decide +kernel
  refine ⟨by decide +kernel, ?_, ?_, ?_⟩
  · rw [e1, hasPath_cons]; exact ⟨.mk "vlan 10".toList none .ctx, by simp, rfl, Or.inl rfl⟩
  · rw [e2, hasPath_cons]
    rintro ⟨i, hi, hk, _⟩
    have : i = .mk "end".toList none .ctx := by simpa using hi
    subst this
    exact absurd hk (by decide)
  · rw [e1, e3, typeAll, typeAll, typeItem, typeSub]
    dsimp only
    refine Or.inl ⟨?_, ?_⟩
    · rw [hasPath_cons]; exact ⟨.mk "vlan 10".toList none .ctx, by simp, rfl, Or.inl rfl⟩
    · intro k' q h hr
      obtain ⟨rfl, _⟩ := List.cons.inj h
      unfold Device.clears at hr
      rw [if_pos (by decide)] at hr
      exact absurd (removesB_iff.2 hr) (by decide +kernel)

/-- C36 does not hold for secondary addresses: to remove one of them, `no ip address` is printed, which removes the
primary address as well. -/
theorem C36_false_for_secondary_address :
    getCli ciscoTables "interface A\n ip address 1 2\n ip address 3 4 secondary\n".toList
      "interface A\n ip address 1 2\n".toList false = some "interface A\n  no ip address".toList ∧
    hasPath (config2list ciscoTables "interface A\n ip address 1 2\n".toList) ["interface A".toList, "ip address 1 2".toList] ∧
    ¬ typeAll (deviceOf ciscoTables (onOf [])) (config2list ciscoTables "interface A\n  no ip address".toList)
      (hasPath (config2list ciscoTables "interface A\n ip address 1 2\n ip address 3 4 secondary\n".toList))
      ["interface A".toList, "ip address 1 2".toList] := by
  have e1 : config2list ciscoTables "interface A\n ip address 1 2\n".toList =
      [.mk "interface A".toList (some [.mk "ip address 1 2".toList none .ctx]) .ctx] := by decide +kernel
  have e2 : config2list ciscoTables "interface A\n  no ip address".toList =
      [.mk "interface A".toList (some [.mk "no ip address".toList none .ctx]) .ctx] := by decide +kernel
  refine ⟨by decide +kernel, ?_, ?_⟩
  · rw [e1, hasPath_cons]
    refine ⟨.mk "interface A".toList (some [.mk "ip address 1 2".toList none .ctx]) .ctx, by simp, rfl, Or.inr ?_⟩
    rw [hasPath_cons]
    exact ⟨.mk "ip address 1 2".toList none .ctx, by simp [Item.inner, Item.sub], rfl, Or.inl rfl⟩
  · rw [e2, typeAll, typeAll, typeItem, typeSub, typeAll, typeAll, typeItem, typeSub]
    dsimp only
    rw [if_pos rfl]
    rintro (h | ⟨_, h⟩ | ⟨h, _⟩)
    · cases h
    · refine h _ _ rfl ?_
      unfold Device.clears
      rw [if_pos (by decide)]
      exact removesB_iff.1 (by decide +kernel)
    · exact absurd h (by decide)

end Demo

end NcDiff.Running
