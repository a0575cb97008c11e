import Verif.Proof.CliText
import Verif.Props.Overwrite
import Verif.Spec.Paste
/-!
# The commands of a diff, as two trees
-/

namespace NcDiff.Running

/-- A negation that the positive commands `keys` make needless. -/
def dropped (t : Tables) (keys : List Str) (c : Str) : Bool :=
  keys.any fun key => (found t key).any fun m => ("no ".toList ++ lstrip m).isPrefixOf c

/-- A negative command that remains. -/
def keepNeg (t : Tables) (keys : List Str) (y : Item) : Bool := y.sub.isSome || !dropped t keys y.key

/-- The command `c`, if it is a negation and `b` is true, or it is none and `b` is false. -/
def leafIf (b : Bool) (c : Str) : List Item := if "no ".toList.isPrefixOf c = b then [.mk c none .ctx] else []

/-- Negations are reversed after needless ones are removed. -/
def tidy (t : Tables) (b : Bool) (keys : List Str) (l : List Item) : List Item :=
  if b then (l.filter (keepNeg t keys)).reverse else l

mutual
/-- The commands of a diff, the negations if `b` is true and the others if it is false, before `tidy`. -/
def sideList (t : Tables) (b : Bool) (keys : List Str) : List Item → List Item
  | [] => []
  | a :: r => sideItem t b keys a ++ sideList t b keys r
def sideItem (t : Tables) (b : Bool) (keys : List Str) : Item → List Item
  | .mk k s i => sideSub t b keys k i s
def sideSub (t : Tables) (b : Bool) (keys : List Str) (k : Str) (i : Info) : Option (List Item) → List Item
  | none =>
    if i = .add then leafIf b k
    else if i = .del then if keys.any (fun key => k.isPrefixOf key) then [] else leafIf b (undo t k)
    else []
  | some l =>
    if i = .del then leafIf b (undo t k)
    else if i = .add then if b then [] else [.mk k (some l) .ctx]
    else if i = .ctx then
      if tidy t b (positiveKeys l) (sideList t b (positiveKeys l) l) = [] then []
      else [.mk k (some (tidy t b (positiveKeys l) (sideList t b (positiveKeys l) l))) .ctx]
    else []
end

/-- The commands of a diff. -/
def tree (t : Tables) (b : Bool) (d : List Item) : List Item := tidy t b (positiveKeys d) (sideList t b (positiveKeys d) d)

theorem tree_def (t : Tables) (b : Bool) (l : List Item) :
    tidy t b (positiveKeys l) (sideList t b (positiveKeys l) l) = tree t b l := rfl

theorem sideSub_ctx (t : Tables) (b : Bool) (keys : List Str) (k : Str) (l : List Item) :
    sideSub t b keys k .ctx (some l) = if tree t b l = [] then [] else [.mk k (some (tree t b l)) .ctx] := rfl

theorem sideList_eq (t : Tables) (b : Bool) (keys : List Str) : ∀ d, sideList t b keys d = d.flatMap (sideItem t b keys)
  | [] => rfl
  | a :: r => by rw [sideList, sideList_eq t b keys r]; rfl

theorem mem_leafIf {b : Bool} {c : Str} {y : Item} : y ∈ leafIf b c ↔ "no ".toList.isPrefixOf c = b ∧ y = .mk c none .ctx := by
  unfold leafIf
  split
  · rename_i h; rw [List.mem_singleton]; exact ⟨fun e => ⟨h, e⟩, fun e => e.2⟩
  · rename_i h; exact ⟨fun e => (List.not_mem_nil e).elim, fun e => absurd e.1 h⟩

theorem leafIf_single {b : Bool} {c : Str} {y : Item} (h : y ∈ leafIf b c) : leafIf b c = [y] := by
  obtain ⟨h1, h2⟩ := mem_leafIf.1 h
  unfold leafIf
  rw [if_pos h1, h2]

theorem mem_tree {t : Tables} {b : Bool} {d : List Item} {y : Item} : y ∈ tree t b d ↔
    (∃ x ∈ d, y ∈ sideItem t b (positiveKeys d) x) ∧ (b = true → keepNeg t (positiveKeys d) y = true) := by
  unfold tree tidy
  cases b with
  | true => rw [if_pos rfl, List.mem_reverse, List.mem_filter, sideList_eq, List.mem_flatMap]; simp
  | false => rw [if_neg (by simp), sideList_eq, List.mem_flatMap]; simp

/-- A removed line for which there is no command, because an added line without a section begins with it. -/
def Skipped (d : List Item) (x : Item) : Prop := x.sub = none ∧ ∃ y ∈ d, y.info = .add ∧ y.sub = none ∧ x.key <+: y.key

theorem mem_positiveKeys {d : List Item} {k : Str} : k ∈ positiveKeys d ↔ ∃ x ∈ d, x.info = .add ∧ x.sub = none ∧ x.key = k := by
  unfold positiveKeys
  simp only [List.mem_map, List.mem_filter, Bool.and_eq_true, decide_eq_true_eq, Option.isNone_iff_eq_none, and_assoc]


theorem any_keys {d : List Item} {k : Str} : (positiveKeys d).any (fun key => k.isPrefixOf key) = true ↔
    ∃ y ∈ d, y.info = .add ∧ y.sub = none ∧ k <+: y.key := by
  rw [List.any_eq_true]
  constructor
  · rintro ⟨key, hk, hp⟩
    obtain ⟨y, hy, h1, h2, rfl⟩ := mem_positiveKeys.1 hk
    exact ⟨y, hy, h1, h2, List.isPrefixOf_iff_prefix.1 hp⟩
  · rintro ⟨y, hy, h1, h2, hp⟩
    exact ⟨_, mem_positiveKeys.2 ⟨y, hy, h1, h2, rfl⟩, List.isPrefixOf_iff_prefix.2 hp⟩

/-- The commands for one line of a diff. -/
theorem mem_sideItem {t : Tables} {b : Bool} {d : List Item} {x y : Item} : y ∈ sideItem t b (positiveKeys d) x ↔
    (x.info = .add ∧ x.sub = none ∧ "no ".toList.isPrefixOf x.key = b ∧ y = .mk x.key none .ctx) ∨
    (x.info = .del ∧ ¬ Skipped d x ∧ "no ".toList.isPrefixOf (undo t x.key) = b ∧ y = .mk (undo t x.key) none .ctx) ∨
    (x.info = .add ∧ b = false ∧ ∃ l, x.sub = some l ∧ y = .mk x.key (some l) .ctx) ∨
    (x.info = .ctx ∧ ∃ l, x.sub = some l ∧ tree t b l ≠ [] ∧ y = .mk x.key (some (tree t b l)) .ctx) := by
  obtain ⟨k, s, i⟩ := x
  have hsk : ∀ i, Skipped d (.mk k none i) ↔ (positiveKeys d).any (fun key => k.isPrefixOf key) = true := by
    intro i
    rw [any_keys]
    unfold Skipped
    simp [Item.sub, Item.key]
  have hsk' : ∀ l i, ¬ Skipped d (.mk k (some l) i) := by
    rintro l i ⟨h, _⟩; cases h
  rw [sideItem]
  cases s with
  | none =>
    rw [sideSub]
    cases i with
    | add => simp [Item.info, Item.sub, Item.key, mem_leafIf]
    | del =>
      rw [hsk]
      simp only [Item.info, Item.sub, Item.key, reduceCtorEq, if_false, if_true, false_and, false_or, or_false, true_and]
      split
      · rename_i h; simp [h]
      · rename_i h; rw [mem_leafIf]; simp [h]
    | same => simp [Item.info, Item.sub]
    | ctx => simp [Item.info, Item.sub]
  | some l =>
    rw [sideSub, tree_def]
    cases i with
    | add =>
      simp only [Item.info, Item.sub, Item.key, reduceCtorEq, if_false, if_true, false_and, false_or, or_false, true_and]
      cases b <;> simp
    | del =>
      simp only [Item.info, Item.sub, Item.key, reduceCtorEq, if_false, if_true, false_and, false_or, or_false, true_and,
        hsk', not_false_eq_true, mem_leafIf]
    | same => simp [Item.info]
    | ctx =>
      simp only [Item.info, Item.sub, Item.key, reduceCtorEq, if_false, if_true, false_and, false_or, true_and,
        Option.some.injEq, exists_eq_left']
      split
      · rename_i h; simp [h]
      · rename_i h; simp [h]

theorem sideItem_single {t : Tables} {b : Bool} {keys : List Str} {x y : Item} (h : y ∈ sideItem t b keys x) :
    sideItem t b keys x = [y] := by
  obtain ⟨k, s, i⟩ := x
  rw [sideItem] at h ⊢
  cases s with
  | none =>
    rw [sideSub] at h ⊢
    split at h
    · rename_i hi; rw [if_pos hi]; exact leafIf_single h
    · rename_i hi
      rw [if_neg hi]
      split at h
      · rename_i hi
        rw [if_pos hi]
        split at h
        · cases h
        · rename_i hk; rw [if_neg hk]; exact leafIf_single h
      · cases h
  | some l =>
    rw [sideSub] at h ⊢
    split at h
    · rename_i hi; rw [if_pos hi]; exact leafIf_single h
    · rename_i hi
      rw [if_neg hi]
      split at h
      · rename_i hi
        rw [if_pos hi]
        split at h
        · cases h
        · rename_i hk; rw [if_neg hk, List.mem_singleton.1 h]
      · rename_i hi
        rw [if_neg hi]
        split at h
        · rename_i hi
          rw [if_pos hi]
          split at h
          · cases h
          · rename_i hk; rw [if_neg hk, List.mem_singleton.1 h]
        · cases h

/-- Commands that do not get into each other's way. -/
inductive Calm (dev : Device) : List Item → Prop
  | mk {l} : (l.map Item.key).Nodup →
      (∀ i ∈ l, ∀ j ∈ l, i.sub = none → j.sub ≠ none ∨ dev.shows j.key → ¬ dev.clears i.key j.key) →
      (∀ i ∈ l, ∀ s, i.sub = some s → Calm dev s) → Calm dev l

/-- What is needed of the lines of one section of a diff. -/
structure LevelOk (t : Tables) (on : Str → Prop) (d : List Item) : Prop where
  line : ∀ x ∈ d, DeviceLine t on x.key
  addSub : ∀ x ∈ d, x.info = .add → ∀ s, x.sub = some s → s ≠ [] ∧ GoodText t s
  addLines : ∀ x ∈ d, x.info = .add → ∀ s, x.sub = some s → AllLines (DeviceLine t on) s
  addCalm : ∀ x ∈ d, x.info = .add → ∀ s, x.sub = some s → Calm (deviceOf t on) s
  nodup2 : ((d.filter (fun x => x.info ≠ .del)).map Item.key).Nodup
  nodup1 : ((d.filter (fun x => x.info ≠ .add)).map Item.key).Nodup
  same2 : ∀ x ∈ d, ∀ y ∈ d, x.info ≠ .del → y.info ≠ .del → sameHead t x.key y.key → x.key = y.key
  same1 : ∀ x ∈ d, ∀ y ∈ d, x.info ≠ .add → y.info ≠ .add → sameHead t x.key y.key → x.key = y.key
  single1 : ∀ x ∈ d, ∀ y ∈ d, x.info ≠ .add → y.info ≠ .add → (deviceOf t on).removes (negation t x.key) y.key →
    x.key = y.key
  leaf : ∀ x ∈ d, found t x.key ≠ [] ∨ "no ".toList <+: x.key → x.sub = none
  cmds : ∀ i ∈ d, ∀ j ∈ d, i.marked → j.marked →
    "no ".toList.isPrefixOf (i.command t) = "no ".toList.isPrefixOf (j.command t) →
    i.command t <+: j.command t → i.command t = j.command t
  both : ∀ i ∈ d, ∀ j ∈ d, i.info = .del → j.info = .add → i.key <+: j.key → i.key = j.key ∨ sameHead t j.key i.key
  heads : HeadsOk t

/-- A diff whose commands are changed by the clean-up only where a command overwrites another one. -/
inductive DiffOk (t : Tables) (on : Str → Prop) : List Item → Prop
  | mk {d} : LevelOk t on d → (∀ x ∈ d, x.info = .ctx → ∀ s, x.sub = some s → DiffOk t on s) → DiffOk t on d

/-- A tree of commands that can be printed and read back. -/
structure CmdTree (t : Tables) (l : List Item) : Prop where
  good : GoodText t l
  mark : ∀ a ∈ l, ∀ r, a.key ≠ '-' :: r ∧ a.key ≠ '+' :: r

theorem GoodText.append {t : Tables} {a b : List Item} (ha : GoodText t a) (hb : GoodText t b) :
    GoodText t (a ++ b) := by
  induction ha with
  | nil => exact hb
  | leaf hk _ ih => exact .leaf hk ih
  | node hk hs h1 _ _ ih => exact .node hk hs h1 ih

theorem GoodText.reverse {t : Tables} {a : List Item} (ha : GoodText t a) : GoodText t a.reverse := by
  induction ha with
  | nil => exact .nil
  | leaf hk _ ih => rw [List.reverse_cons]; exact ih.append (.leaf hk .nil)
  | node hk hs h1 _ _ ih => rw [List.reverse_cons]; exact ih.append (.node hk hs h1 .nil)

theorem CmdTree.append {t : Tables} {a b : List Item} (ha : CmdTree t a) (hb : CmdTree t b) :
    CmdTree t (a ++ b) :=
  ⟨ha.good.append hb.good, fun x hx => by
    rcases List.mem_append.1 hx with h | h
    · exact ha.mark x h
    · exact hb.mark x h⟩

theorem CmdTree.reverse {t : Tables} {a : List Item} (ha : CmdTree t a) : CmdTree t a.reverse :=
  ⟨ha.good.reverse, fun x hx => ha.mark x (List.mem_reverse.1 hx)⟩

theorem CmdTree.nil {t : Tables} : CmdTree t [] := ⟨.nil, by simp⟩

/-- Printing below a section. -/
theorem CmdTree.indent {t : Tables} {l : List Item} (h : CmdTree t l) (hl : l ≠ []) :
    rstrip (Running.indent (joinLines (textLines 0 l))) = joinLines (textLines 1 l) := by
  rw [← h.good.rstrip hl 1]
  congr 1
  unfold Running.indent
  rw [splitLines_join]
  · rw [textLines_shift 0 l]
    have : ∀ x ∈ textLines 0 l, ∃ c r, x = c :: r ∧ c ≠ '-' ∧ c ≠ '+' := by
      rw [textLines_eq_flatten]
      intro x hx
      rw [List.mem_flatten] at hx
      obtain ⟨ls, hls, hx⟩ := hx
      obtain ⟨a, ha, rfl⟩ := List.mem_map.1 hls
      obtain ⟨k, s, i⟩ := a
      rw [itemLines, List.mem_cons] at hx
      rcases hx with hx | hx
      · have hx : x = k := by simpa using hx
        subst hx
        have h1 := h.mark _ ha
        have h2 : ∃ c r, x = c :: r := by
          obtain ⟨k', m, _, h3⟩ := h.good.lines 0 x (by
            rw [textLines_eq_flatten, List.mem_flatten]
            exact ⟨_, List.mem_map_of_mem ha, by rw [itemLines]; simp⟩)
          have := h3.rstrip.2
          cases x with
          | nil => exact absurd rfl this
          | cons c r => exact ⟨c, r, rfl⟩
        obtain ⟨c, r, rfl⟩ := h2
        refine ⟨c, r, by simp, ?_, ?_⟩
        · rintro rfl; exact (h1 r).1 rfl
        · rintro rfl; exact (h1 r).2 rfl
      · cases s with
        | none => simp [subLines] at hx
        | some s =>
          rw [subLines, textLines_shift 0 s, List.mem_map] at hx
          obtain ⟨y, _, rfl⟩ := hx
          exact ⟨_, _, rfl, by decide, by decide⟩
    clear h hl
    generalize textLines 0 l = L at this
    induction L with
    | nil => rfl
    | cons x r ih =>
      obtain ⟨c, q, rfl, h1, h2⟩ := this x (by simp)
      rw [List.flatMap_cons, ih (fun y hy => this y (by simp [hy]))]
      have : indentLine (c :: q) = ' ' :: ' ' :: c :: q ++ ['\n'] := by
        unfold indentLine
        split
        · rename_i h; cases h
        · rename_i h; cases h; exact absurd rfl h1
        · rename_i h; cases h; exact absurd rfl h2
        · rfl
      rw [this]
      simp [unlines]
  · intro x hx
    obtain ⟨k, m, _, h1⟩ := h.good.lines 0 x hx
    exact ⟨h1.noBreak, h1.rstrip.2⟩

/-! ## Lines of a device -/

theorem notNo {k : Str} (h : ¬ "no ".toList <+: k) : "no ".toList.isPrefixOf k = false := by
  rw [Bool.eq_false_iff]
  exact fun h' => h (List.isPrefixOf_iff_prefix.1 h')

theorem ToggleLine.eq {t : Tables} {on : Str → Prop} {k : Str} (h : ToggleLine t on k) : k = "no ".toList ++ k.drop 3 := by
  obtain ⟨r, hr⟩ := h.negative
  subst hr
  rfl

theorem ToggleLine.undo {t : Tables} {on : Str → Prop} {k : Str} (h : ToggleLine t on k) : undo t k = k.drop 3 := by
  unfold Running.undo
  rw [if_pos (List.isPrefixOf_iff_prefix.2 h.negative)]

theorem PasteLine.undo {t : Tables} {k : Str} (h : PasteLine t k) : undo t k = negation t k := by
  unfold Running.undo
  rw [notNo h.positive]; simp

theorem DeviceLine.good {t : Tables} {on : Str → Prop} {k : Str} (h : DeviceLine t on k) : GoodLine t k := by
  cases h with
  | line h => exact h.good
  | toggle h => exact h.good

theorem DeviceLine.undoGood {t : Tables} {on : Str → Prop} {k : Str} (h : DeviceLine t on k) : GoodLine t (undo t k) := by
  cases h with
  | line h => rw [h.undo]; exact h.noGood
  | toggle h => rw [h.undo]; exact h.bare

theorem DeviceLine.isNo_undo {t : Tables} {on : Str → Prop} {k : Str} (h : DeviceLine t on k) :
    "no ".toList.isPrefixOf (undo t k) = !"no ".toList.isPrefixOf k := by
  cases h with
  | line h => rw [h.undo, List.isPrefixOf_iff_prefix.2 h.negative, notNo h.positive]; rfl
  | toggle h => rw [h.undo, List.isPrefixOf_iff_prefix.2 h.negative, notNo h.positive]; rfl

theorem no_mark {k : Str} (h : "no ".toList <+: k) (r : Str) : k ≠ '-' :: r ∧ k ≠ '+' :: r := by
  obtain ⟨w, hw⟩ := h
  rw [← hw]
  exact ⟨by simp, by simp⟩

theorem DeviceLine.mark {t : Tables} {on : Str → Prop} {k : Str} (h : DeviceLine t on k) (r : Str) :
    k ≠ '-' :: r ∧ k ≠ '+' :: r := by
  cases h with
  | line h => exact h.mark r
  | toggle h => exact no_mark h.negative r

theorem DeviceLine.undoMark {t : Tables} {on : Str → Prop} {k : Str} (h : DeviceLine t on k) (r : Str) :
    undo t k ≠ '-' :: r ∧ undo t k ≠ '+' :: r := by
  cases h with
  | line h => rw [h.undo]; exact no_mark h.negative r
  | toggle h => rw [h.undo]; exact h.mark r

theorem DeviceLine.ne {t : Tables} {on : Str → Prop} {k : Str} (h : DeviceLine t on k) : k ≠ [] := by
  obtain ⟨c, r, rfl, _⟩ := h.good.first; simp

/-- A line is shown after it is typed. -/
theorem DeviceLine.shows {t : Tables} {on : Str → Prop} {k : Str} (h : DeviceLine t on k) : (deviceOf t on).shows k := by
  unfold Device.shows
  cases h with
  | line h h1 _ => rw [notNo h.positive]; exact h1
  | toggle h => rw [if_pos (List.isPrefixOf_iff_prefix.2 h.negative)]; exact h.on

/-- The command that undoes it is not shown. -/
theorem DeviceLine.undo_hidden {t : Tables} {on : Str → Prop} {k : Str} (h : DeviceLine t on k) :
    ¬ (deviceOf t on).shows (undo t k) := by
  unfold Device.shows
  cases h with
  | line h _ h2 => rw [h.undo, if_pos (List.isPrefixOf_iff_prefix.2 h.negative)]; exact h2
  | toggle h => rw [h.undo, notNo h.positive]; exact fun h' => h' h.on

theorem PasteLine.removes {t : Tables} {on : Str → Prop} {k : Str} (_ : PasteLine t k) :
    (deviceOf t on).removes (negation t k) k := by
  unfold Device.removes negation
  cases hf : t.shortNo.find? (fun s => s.isPrefixOf ("no ".toList ++ k)) with
  | none => exact Or.inl rfl
  | some s =>
    have : s.isPrefixOf ("no ".toList ++ k) = true := by simpa using List.find?_some hf
    exact Or.inr ⟨s, List.mem_of_find?_eq_some hf, rfl, List.isPrefixOf_iff_prefix.1 this⟩

/-- It takes the line away. -/
theorem DeviceLine.undo_clears {t : Tables} {on : Str → Prop} {k : Str} (h : DeviceLine t on k) :
    (deviceOf t on).clears (undo t k) k := by
  unfold Device.clears
  cases h with
  | line h => rw [h.undo, if_pos (List.isPrefixOf_iff_prefix.2 h.negative)]; exact h.removes
  | toggle h => rw [h.undo, notNo h.positive]; simpa using Or.inr h.eq

/-- A line takes away another line only if they have the same head. -/
theorem DeviceLine.not_clears {t : Tables} {on : Str → Prop} {a b : Str} (ha : DeviceLine t on a) (hb : DeviceLine t on b)
    (h : sameHead t a b → a = b) : ¬ (deviceOf t on).clears a b := by
  unfold Device.clears
  cases ha with
  | line ha h1 _ =>
    rw [notNo ha.positive]
    simp only [Bool.false_eq_true, if_false]
    rintro (⟨h2, h3⟩ | rfl)
    · exact h2 (h h3).symm
    · cases hb with
      | line hb => exact hb.positive (List.prefix_append _ _)
      | toggle hb => exact h1 hb.on
  | toggle ha =>
    rw [if_pos (List.isPrefixOf_iff_prefix.2 ha.negative)]
    rintro (rfl | ⟨s, hs, h2, _⟩)
    · cases hb with
      | line hb h1 _ => exact h1 ha.on
      | toggle hb => exact ha.positive hb.negative
    · exact (ha.short s hs).1 h2

/-- The command that undoes a negation takes away nothing else. -/
theorem ToggleLine.undo_only {t : Tables} {on : Str → Prop} {a b : Str} (ha : ToggleLine t on a)
    (h : (deviceOf t on).clears (Running.undo t a) b) : b = a := by
  unfold Device.clears at h
  rw [ha.undo, notNo ha.positive] at h
  simp only [Bool.false_eq_true, if_false] at h
  rcases h with ⟨_, m, hm, _⟩ | h
  · rw [ha.plain.2] at hm; cases hm
  · rw [h]; exact ha.eq.symm

/-- The command that undoes a line takes away another one only if its negation removes it. -/
theorem DeviceLine.undo_only {t : Tables} {on : Str → Prop} {a b : Str} (ha : DeviceLine t on a)
    (h : (deviceOf t on).removes (negation t a) b → a = b) (hc : (deviceOf t on).clears (undo t a) b) : a = b := by
  cases ha with
  | line ha =>
    unfold Device.clears at hc
    rw [ha.undo, if_pos (List.isPrefixOf_iff_prefix.2 ha.negative)] at hc
    exact h hc
  | toggle ha => exact (ha.undo_only hc).symm

/-- The negation of a line does not take away a negation. -/
theorem PasteLine.undo_toggle {t : Tables} {on : Str → Prop} {a b : Str} (ha : PasteLine t a) (hb : ToggleLine t on b) :
    ¬ (deviceOf t on).clears (Running.undo t a) b := by
  unfold Device.clears
  rw [ha.undo, if_pos (List.isPrefixOf_iff_prefix.2 ha.negative)]
  rintro (h | ⟨s, hs, _, h⟩)
  · unfold negation at h
    split at h
    · rename_i s hs
      exact (hb.short s (List.mem_of_find?_eq_some hs)).2.1 h
    · exact ha.positive ((List.append_cancel_left h) ▸ hb.negative)
  · exact (hb.short s hs).2.2.2.2 h

theorem DeviceLine.keep {t : Tables} {on : Str → Prop} {k : Str} (h : DeviceLine t on k) (hn : ¬ "no ".toList <+: k) :
    PasteLine t k ∧ ¬ on k ∧ ¬ on ((negation t k).drop 3) := by
  cases h with
  | line h h1 h2 => exact ⟨h, h1, h2⟩
  | toggle h => exact absurd h.negative hn

theorem DeviceLine.of_found {t : Tables} {on : Str → Prop} {k : Str} (h : DeviceLine t on k) (hn : found t k ≠ []) :
    PasteLine t k := by
  cases h with
  | line h h1 h2 => exact h
  | toggle h => exact absurd h.plain.1 hn

/-! ## Commands of one item -/

/-- A command is put into one of the two lists. -/
def sendTo (k : Str) (c : Cmds) : Cmds :=
  if "no ".toList.isPrefixOf k then { c with neg := c.neg ++ [k] } else { c with pos := c.pos ++ [k] }

theorem DeviceLine.add {t : Tables} {on : Str → Prop} {k : Str} (h : DeviceLine t on k) (c : Cmds) :
    appendCommand t k c = sendTo k c := by
  have h1 : ("no no ".toList.isPrefixOf k) = false := by
    rw [Bool.eq_false_iff]
    intro h'
    rw [List.isPrefixOf_iff_prefix] at h'
    cases h with
    | line h => exact h.positive ((List.prefix_append "no ".toList "no ".toList).trans h')
    | toggle h =>
      rw [h.eq] at h'
      have h'' : "no ".toList ++ "no ".toList <+: "no ".toList ++ k.drop 3 := h'
      exact h.positive ((List.prefix_append_right_inj _).1 h'')
  have h2 : t.shortNo.find? (fun s => s.isPrefixOf k) = none := by
    rw [List.find?_eq_none]
    intro s hs h'
    cases h with
    | line h => exact h.short s hs (List.isPrefixOf_iff_prefix.1 h')
    | toggle h => exact (h.short s hs).2.2.1 (List.isPrefixOf_iff_prefix.1 h')
  unfold appendCommand handleCommand sendTo
  rw [h1, h2]
  simp only [Bool.false_eq_true, if_false, h.good.strip]
  cases "no ".toList.isPrefixOf k <;> simp

theorem DeviceLine.del {t : Tables} {on : Str → Prop} {k : Str} (h : DeviceLine t on k) (c : Cmds) :
    appendCommand t ("no ".toList ++ k) c = sendTo (undo t k) c := by
  unfold appendCommand handleCommand sendTo
  cases h with
  | line h =>
    have h1 : ("no no ".toList.isPrefixOf ("no ".toList ++ k)) = false := by
      rw [Bool.eq_false_iff]
      intro h'
      rw [List.isPrefixOf_iff_prefix] at h'
      have h'' : "no ".toList ++ "no ".toList <+: "no ".toList ++ k := h'
      exact h.positive ((List.prefix_append_right_inj _).1 h'')
    have h3 : ("no ".toList.isPrefixOf ("no ".toList ++ k)) = true := by
      rw [List.isPrefixOf_iff_prefix]; exact List.prefix_append _ _
    rw [h.undo, if_pos (List.isPrefixOf_iff_prefix.2 h.negative)]
    have hg := h.noGood.strip
    unfold negation at hg ⊢
    rw [h1, h3]
    cases hf : t.shortNo.find? (fun s => s.isPrefixOf ("no ".toList ++ k)) with
    | none =>
      rw [hf] at hg
      simp only [Bool.false_eq_true, if_false] at hg ⊢
      rw [hg]
    | some s => simp
  | toggle h =>
    have h1 : ("no no ".toList.isPrefixOf ("no ".toList ++ k)) = true := by
      rw [List.isPrefixOf_iff_prefix, h.eq, ← List.append_assoc]
      exact List.prefix_append ("no ".toList ++ "no ".toList) _
    have h2 : ("no ".toList ++ k).drop 6 = k.drop 3 := rfl
    rw [if_pos h1, h2, h.bare.strip, h.undo, notNo h.positive]
    simp

/-- The commands of a diff are the lines of its two trees. -/
def TextOk (t : Tables) (d : List Item) : Prop :=
  list2cli t d = (joinLines (textLines 0 (tree t false d)), joinLines (textLines 0 (tree t true d))) ∧
    CmdTree t (tree t false d) ∧ CmdTree t (tree t true d)

theorem CmdTree.leafIf {t : Tables} {k : Str} (h : GoodLine t k) (hm : ∀ r, k ≠ '-' :: r ∧ k ≠ '+' :: r) (b : Bool) :
    CmdTree t (leafIf b k) := by
  unfold Running.leafIf
  split
  · exact ⟨.leaf h .nil, by
      intro a ha' r
      rw [List.mem_singleton] at ha'
      subst ha'
      exact hm r⟩
  · exact CmdTree.nil

theorem sendTo_eq (k : Str) (c : Cmds) :
    sendTo k c = ⟨c.pos ++ (leafIf false k).map cmdText, c.neg ++ (leafIf true k).map cmdText⟩ := by
  unfold sendTo leafIf
  cases "no ".toList.isPrefixOf k <;> simp [cmdText_none]

theorem cliItem_eq {t : Tables} {on : Str → Prop} {keys : List Str} {x : Item} (hk : DeviceLine t on x.key)
    (ha : x.info = .add → ∀ s, x.sub = some s → s ≠ [] ∧ GoodText t s)
    (hc : x.info = .ctx → ∀ s, x.sub = some s → TextOk t s) (c : Cmds) :
    cliItem t keys x c = ⟨c.pos ++ (sideItem t false keys x).map cmdText, c.neg ++ (sideItem t true keys x).map cmdText⟩ ∧
      CmdTree t (sideItem t false keys x) ∧ CmdTree t (sideItem t true keys x) := by
  obtain ⟨k, s, i⟩ := x
  simp only [Item.key, Item.info, Item.sub] at hk ha hc
  have hp : ∀ s, s ≠ [] → GoodText t s → CmdTree t [.mk k (some s) .ctx] := fun s h1 h2 =>
    ⟨.node hk.good h1 h2 .nil, by
      intro a ha' r
      rw [List.mem_singleton] at ha'
      subst ha'
      exact hk.mark r⟩
  rw [cliItem, if_neg hk.ne, sideItem, sideItem]
  cases s with
  | none =>
    cases i with
    | ctx => simp [cliSub, sideSub, CmdTree.nil]
    | same => simp [cliSub, sideSub, CmdTree.nil]
    | add =>
      simp only [cliSub, sideSub, if_true, hk.add, sendTo_eq, true_and]
      exact ⟨.leafIf hk.good hk.mark _, .leafIf hk.good hk.mark _⟩
    | del =>
      simp only [cliSub, sideSub, if_true, hk.del, sendTo_eq, reduceCtorEq, if_false]
      by_cases hk' : keys.any (fun key => k.isPrefixOf key)
      · simp [hk', CmdTree.nil]
      · simp only [if_neg hk', true_and]
        exact ⟨.leafIf hk.undoGood hk.undoMark _, .leafIf hk.undoGood hk.undoMark _⟩
  | some l =>
    cases i with
    | same => simp [cliSub, sideSub, CmdTree.nil]
    | del =>
      simp only [cliSub, sideSub, if_true, hk.del, sendTo_eq, true_and]
      exact ⟨.leafIf hk.undoGood hk.undoMark _, .leafIf hk.undoGood hk.undoMark _⟩
    | add =>
      obtain ⟨h1, h2⟩ := ha rfl l rfl
      have e : rstrip (list2config none l) = joinLines (textLines 1 l) := by
        rw [list2config_eq h2, h2.rstrip h1]
      have e2 : joinLines (textLines 1 l) ≠ [] := by
        obtain ⟨k', y, r, he, hy⟩ := h2.head h1 1
        rw [he]
        cases r with
        | nil => exact hy.rstrip.2
        | cons z r => simp [joinLines]
      simp only [cliSub, sideSub, if_true, Bool.false_eq_true, reduceCtorEq, if_false, List.map_cons, List.map_nil, e, if_neg e2,
        List.append_nil, cmdText_some h2 h1, true_and]
      exact ⟨hp l h1 h2, CmdTree.nil⟩
    | ctx =>
      obtain ⟨h1, h2, h3⟩ := hc rfl l rfl
      have hl : finishCli t (cliLoop t ((l.filter (fun x => x.info = .add && x.sub.isNone)).map Item.key) l ⟨[], []⟩) =
        list2cli t l := rfl
      have hne : ∀ {L : List Item}, CmdTree t L → L ≠ [] → joinLines (textLines 0 L) ≠ [] := by
        intro L hL hne
        obtain ⟨k', y, r, he, hy⟩ := hL.good.head hne 0
        rw [he]
        cases r with
        | nil => exact hy.rstrip.2
        | cons z r => simp [joinLines]
      simp only [cliSub, sideSub_ctx, hl, h1]
      have one : ∀ b, CmdTree t (tree t b l) → ∀ c : List Str,
          (if joinLines (textLines 0 (tree t b l)) = [] then c else
            c ++ [k ++ '\n' :: rstrip (Running.indent (joinLines (textLines 0 (tree t b l))))]) =
          c ++ (if tree t b l = [] then [] else [Item.mk k (some (tree t b l)) .ctx]).map cmdText := by
        intro b hb c
        by_cases hP : tree t b l = []
        · simp [hP, textLines, joinLines]
        · rw [if_neg hP, if_neg (hne hb hP), List.map_cons, List.map_nil, cmdText_some hb.good hP, hb.indent hP]
      refine ⟨?_, ?_, ?_⟩
      · rw [one false h2, one true h3]
      · by_cases hP : tree t false l = []
        · rw [if_pos hP]; exact CmdTree.nil
        · rw [if_neg hP]; exact hp _ hP h2.good
      · by_cases hN : tree t true l = []
        · rw [if_pos hN]; exact CmdTree.nil
        · rw [if_neg hN]; exact hp _ hN h3.good

theorem cliLoop_eq {t : Tables} {on : Str → Prop} {keys : List Str} : ∀ {d : List Item},
    (∀ x ∈ d, DeviceLine t on x.key) →
    (∀ x ∈ d, x.info = .add → ∀ s, x.sub = some s → s ≠ [] ∧ GoodText t s) →
    (∀ x ∈ d, x.info = .ctx → ∀ s, x.sub = some s → TextOk t s) → ∀ c : Cmds,
    cliLoop t keys d c = ⟨c.pos ++ (sideList t false keys d).map cmdText, c.neg ++ (sideList t true keys d).map cmdText⟩ ∧
      CmdTree t (sideList t false keys d) ∧ CmdTree t (sideList t true keys d)
  | [], _, _, _, c => by simp [cliLoop, sideList, CmdTree.nil]
  | x :: d, h1, h2, h3, c => by
    obtain ⟨e, g1, g2⟩ := cliItem_eq (keys := keys) (h1 x (by simp)) (h2 x (by simp)) (h3 x (by simp)) c
    obtain ⟨e', g1', g2'⟩ := cliLoop_eq (keys := keys) (d := d) (fun y hy => h1 y (by simp [hy]))
      (fun y hy => h2 y (by simp [hy])) (fun y hy => h3 y (by simp [hy])) (cliItem t keys x c)
    rw [cliLoop, e', e, sideList, sideList]
    refine ⟨by simp, g1.append g1', g2.append g2'⟩

/-! ## Keys of the trees -/

/-- A command is the line itself or the one that undoes it. -/
theorem sideItem_key {t : Tables} {b : Bool} {d : List Item} {x y : Item} (h : y ∈ sideItem t b (positiveKeys d) x) :
    (x.info ≠ .del ∧ y.key = x.key) ∨ (x.info = .del ∧ y.key = undo t x.key ∧ y.sub = none) := by
  rcases mem_sideItem.1 h with ⟨h1, _, _, rfl⟩ | ⟨h1, _, _, rfl⟩ | ⟨h1, _, l, _, rfl⟩ | ⟨h1, l, _, _, rfl⟩
  · exact Or.inl ⟨by simp [h1], rfl⟩
  · exact Or.inr ⟨h1, rfl, rfl⟩
  · exact Or.inl ⟨by simp [h1], rfl⟩
  · exact Or.inl ⟨by simp [h1], rfl⟩

theorem sideList_nodup {t : Tables} {on : Str → Prop} {d : List Item} (h : LevelOk t on d) (b : Bool) :
    ((sideList t b (positiveKeys d) d).map Item.key).Nodup := by
  rw [List.nodup_iff_pairwise_ne, List.pairwise_map, sideList_eq, List.pairwise_flatMap]
  constructor
  · intro x hx
    cases hr : sideItem t b (positiveKeys d) x with
    | nil => exact .nil
    | cons y r =>
      have := sideItem_single (by rw [hr]; simp : y ∈ sideItem t b (positiveKeys d) x)
      rw [hr] at this
      rw [this]
      exact List.pairwise_singleton _ _
  · have h1 := h.nodup1
    have h2 := h.nodup2
    rw [List.nodup_iff_pairwise_ne, List.pairwise_map, List.pairwise_filter] at h1 h2
    refine List.Pairwise.imp_of_mem ?_ (h1.and h2)
    rintro a c ha hc ⟨h1, h2⟩ y hy z hz e
    rcases sideItem_key hy with ⟨na, ea⟩ | ⟨da, ea, _⟩ <;> rcases sideItem_key hz with ⟨nc, ec⟩ | ⟨dc, ec, _⟩
    · exact h2 (by simpa using na) (by simpa using nc) (by rw [← ea, ← ec, e])
    · refine (h.line c hc).undo_hidden ?_
      rw [← ec, ← e, ea]; exact (h.line a ha).shows
    · refine (h.line a ha).undo_hidden ?_
      rw [← ea, e, ec]; exact (h.line c hc).shows
    · refine h1 (by simp [da]) (by simp [dc]) ((h.line a ha).undo_only (h.single1 a ha c hc (by simp [da]) (by simp [dc])) ?_)
      rw [← ea, e, ec]
      exact (h.line c hc).undo_clears

theorem tree_nodup {t : Tables} {on : Str → Prop} {d : List Item} (h : LevelOk t on d) (b : Bool) :
    ((tree t b d).map Item.key).Nodup := by
  have := sideList_nodup h b
  unfold tree tidy
  split
  · rw [List.map_reverse, List.nodup_reverse]
    exact this.sublist (List.filter_sublist.map _)
  · exact this

theorem GoodText.noFeed {t : Tables} {l : List Item} (h : GoodText t l) : ∀ a ∈ l, '\n' ∉ a.key := by
  induction h with
  | nil => simp
  | leaf hk _ ih => intro a ha; rcases List.mem_cons.1 ha with rfl | ha; exact hk.noFeed; exact ih a ha
  | node hk _ _ _ _ ih => intro a ha; rcases List.mem_cons.1 ha with rfl | ha; exact hk.noFeed; exact ih a ha

theorem cmdText_feed {a : Item} (h : '\n' ∉ cmdText a) : cmdText a = a.key := by
  rcases cmdText_cases a with h1 | ⟨r, h1⟩
  · exact h1
  · rw [h1] at h; simp at h

theorem cmdText_multi {z : Item} {s : List Item} (h7 : s ≠ []) (h8 : z.sub = some s) : '\n' ∈ cmdText z := by
  obtain ⟨kz, sz, iz⟩ := z
  simp only [Item.sub] at h8
  subst h8
  obtain ⟨a, r, rfl⟩ : ∃ a r, s = a :: r := by
    cases s with
    | nil => exact absurd rfl h7
    | cons a r => exact ⟨a, r, rfl⟩
  unfold cmdText itemLines subLines textLines
  obtain ⟨q, r', e⟩ : ∃ q r', itemLines (0 + 1) a = q :: r' := by
    cases a; exact ⟨_, _, rfl⟩
  rw [e, List.cons_append, joinLines]
  · simp
  · simp

/-! ## Commands that overwrite one another -/

theorem keepLast_id {heads : Str → List Str} : ∀ {l : List Str}, l.Pairwise (fun a b => ∀ h ∈ heads a, h ∉ heads b) →
    keepLast heads l = l
  | [], _ => rfl
  | a :: r, h => by
    obtain ⟨h1, h2⟩ := List.pairwise_cons.1 h
    rw [keepLast, if_neg, keepLast_id h2]
    rintro ⟨x, hx, b, hb, hxb⟩
    exact h1 b hb x hx hxb

/-- The head `h` takes away the negation `n`. -/
def takes (h n : Str) : Bool := ("no ".toList ++ h).isPrefixOf (lstrip n)

theorem spend_filter : ∀ {l hs : List Str}, l.Pairwise (fun a b => ∀ h ∈ hs, ¬ (takes h a = true ∧ takes h b = true)) →
    spend hs l = l.filter fun n => !hs.any fun h => takes h n
  | [], _, _ => rfl
  | n :: r, hs, hp => by
    obtain ⟨h1, h2⟩ := List.pairwise_cons.1 hp
    rw [spend, List.filter_cons]
    cases hf : hs.find? (fun h => ("no ".toList ++ h).isPrefixOf (lstrip n)) with
    | none =>
      have : (hs.any fun h => takes h n) = false := by
        rw [List.any_eq_false]
        intro h hh
        simpa [takes] using List.find?_eq_none.1 hf h hh
      simp only [this, Bool.not_false, if_true]
      rw [spend_filter h2]
    | some h =>
      have hm := List.mem_of_find?_eq_some hf
      have ht : takes h n = true := by simpa [takes] using List.find?_some hf
      have : (hs.any fun h => takes h n) = true := List.any_eq_true.2 ⟨h, hm, ht⟩
      simp only [this, Bool.not_true, Bool.false_eq_true, if_false]
      rw [spend_filter (h2.imp fun hab x hx => hab x (List.mem_of_mem_erase hx))]
      refine List.filter_congr fun b hb => ?_
      congr 1
      rw [Bool.eq_iff_iff, List.any_eq_true, List.any_eq_true]
      constructor
      · rintro ⟨x, hx, hxb⟩; exact ⟨x, List.mem_of_mem_erase hx, hxb⟩
      · rintro ⟨x, hx, hxb⟩
        refine ⟨x, ?_, hxb⟩
        by_cases he : x = h
        · subst he; exact absurd ⟨ht, hxb⟩ (h1 b hb x hm)
        · exact (List.mem_erase_of_ne he).2 hx

theorem prefix_feed {p k x : Str} (h0 : '\n' ∉ p) (hp : p <+: k ++ '\n' :: x) : p <+: k := by
  rcases Nat.le_total p.length k.length with hl | hl
  · exact List.prefix_of_prefix_length_le hp (List.prefix_append _ _) hl
  · obtain ⟨t, rfl⟩ := List.prefix_of_prefix_length_le (List.prefix_append k ('\n' :: x)) hp hl
    cases t with
    | nil => simp
    | cons c t =>
      have := (List.cons_prefix_cons.1 ((List.prefix_append_right_inj k).1 hp)).1
      subst this
      exact absurd (by simp) h0

theorem GoodLine.lstrip {t : Tables} {k : Str} (h : GoodLine t k) (x : Str) : lstrip (k ++ x) = k ++ x := by
  obtain ⟨c, r, rfl, hc, _⟩ := h.first
  unfold Running.lstrip
  rw [List.cons_append, List.dropWhile_cons_of_neg (by simp [hc])]

theorem takes_line {t : Tables} {h k : Str} (hg : GoodLine t k) : takes h k = ("no ".toList ++ h).isPrefixOf k := by
  unfold takes
  have := hg.lstrip []
  rw [List.append_nil] at this
  rw [this]

theorem takes_section {t : Tables} {h k r : Str} (hk : PasteLine t k) : takes h (k ++ '\n' :: r) = false := by
  unfold takes
  rw [hk.good.lstrip, Bool.eq_false_iff]
  intro hp
  rw [List.isPrefixOf_iff_prefix] at hp
  exact hk.positive (prefix_feed (by decide) ((List.prefix_append _ _).trans hp))

theorem found_eq_nil {t : Tables} {k : Str} : found t k = [] ↔ ∀ rx ∈ t.overwritable, rx k = none := by
  unfold found
  rw [List.filterMap_eq_nil_iff]

theorem side_found {t : Tables} {on : Str → Prop} {d : List Item} (h : LevelOk t on d) {y : Item}
    (hy : y ∈ sideList t false (positiveKeys d) d)
    (hf : found t (cmdText y) ≠ []) : cmdText y = y.key ∧ ∃ x ∈ d, x.info = .add ∧ x.sub = none ∧ y.key = x.key := by
  rw [sideList_eq, List.mem_flatMap] at hy
  obtain ⟨x, hx, hy⟩ := hy
  have sec : x.sub ≠ none → y.key = x.key → False := by
    intro hs hk
    have hx0 : found t x.key = [] := by
      by_cases h0 : found t x.key = []
      · exact h0
      · exact absurd (h.leaf x hx (Or.inl h0)) hs
    have hno : ¬ "no ".toList <+: x.key := fun hno => hs (h.leaf x hx (Or.inr hno))
    have hl := ((h.line x hx).keep hno).1
    refine hf ?_
    rw [found_eq_nil] at hx0 ⊢
    intro rx hrx
    rcases cmdText_cases y with e | ⟨r, e⟩
    · rw [e, hk]; exact hx0 rx hrx
    · rw [e, hk]; exact hl.keep rx hrx (hx0 rx hrx) r
  rcases mem_sideItem.1 hy with ⟨h1, h2, _, rfl⟩ | ⟨_, _, h3, rfl⟩ | ⟨_, _, l, h2, rfl⟩ | ⟨_, l, h2, _, rfl⟩
  · exact ⟨cmdText_none _ _, x, hx, h1, h2, rfl⟩
  · rw [(h.line x hx).isNo_undo] at h3
    simp only [Bool.not_eq_false'] at h3
    rw [cmdText_none] at hf
    cases h.line x hx with
    | line hl => rw [notNo hl.positive] at h3; cases h3
    | toggle hl => rw [hl.undo] at hf; exact absurd hl.plain.2 hf
  · exact (sec (by simp [h2]) rfl).elim
  · exact (sec (by simp [h2]) rfl).elim

theorem side_leaf {t : Tables} {on : Str → Prop} {d : List Item} (h : LevelOk t on d) {k : Str} (hk : k ∈ positiveKeys d)
    (hf : found t k ≠ []) : .mk k none .ctx ∈ sideList t false (positiveKeys d) d := by
  obtain ⟨x, hx, h1, h2, rfl⟩ := mem_positiveKeys.1 hk
  rw [sideList_eq, List.mem_flatMap]
  exact ⟨x, hx, mem_sideItem.2 (Or.inl ⟨h1, h2, notNo ((h.line x hx).of_found hf).positive, rfl⟩)⟩

theorem overwrite_diff {t : Tables} {on : Str → Prop} {d : List Item} (h : LevelOk t on d)
    (g : GoodText t (sideList t false (positiveKeys d) d)) :
    overwrite t ⟨(sideList t false (positiveKeys d) d).map cmdText, (sideList t true (positiveKeys d) d).map cmdText⟩ =
      ⟨(sideList t false (positiveKeys d) d).map cmdText,
        ((sideList t true (positiveKeys d) d).filter (keepNeg t (positiveKeys d))).map cmdText⟩ := by
  have npos := sideList_nodup h false
  have nraw := sideList_nodup h true
  generalize hP : sideList t false (positiveKeys d) d = P at *
  generalize hN : sideList t true (positiveKeys d) d = N at *
  have hfound : ∀ a ∈ P.map cmdText, ∀ m ∈ found t a, ∃ x ∈ d, x.info = .add ∧ x.sub = none ∧ PasteLine t x.key ∧ a = x.key := by
    intro a ha m hm
    obtain ⟨y, hy, rfl⟩ := List.mem_map.1 ha
    obtain ⟨e, x, hx, h1, h2, h3⟩ := side_found h (hP ▸ hy) (List.ne_nil_of_mem hm)
    refine ⟨x, hx, h1, h2, (h.line x hx).of_found ?_, e.trans h3⟩
    rw [← h3, ← e]; exact List.ne_nil_of_mem hm
  have hap : Apart t (P.map cmdText) := by
    refine ⟨List.Pairwise.imp_of_mem ?_ h.heads.apart, ?_⟩
    · intro f g hf hg hfg a ha b hb m n hm hn
      obtain ⟨x, hx, _, _, px, rfl⟩ := hfound a ha m (List.mem_filterMap.2 ⟨f, hf, hm⟩)
      obtain ⟨y, hy, _, _, py, rfl⟩ := hfound b hb n (List.mem_filterMap.2 ⟨g, hg, hn⟩)
      exact hfg _ _ px py m n hm hn
    · intro a ha b hb m hm n hn
      obtain ⟨x, hx, _, _, px, rfl⟩ := hfound a ha m hm
      obtain ⟨y, hy, _, _, py, rfl⟩ := hfound b hb n hn
      exact h.heads.exclusive _ _ px py m hm n hn
  have e1 := C69_positive (c := ⟨P.map cmdText, N.map cmdText⟩) hap
  have e2 := C69_negative (c := ⟨P.map cmdText, N.map cmdText⟩) hap
  have e3 : keepLast (headsOf t) (P.map cmdText) = P.map cmdText := by
    apply keepLast_id
    have := cmdText_nodup g.noFeed npos
    rw [List.nodup_iff_pairwise_ne] at this
    refine List.Pairwise.imp_of_mem ?_ this
    intro a b ha hb hne x hxa hxb
    obtain ⟨m, hm, rfl⟩ := List.mem_map.1 hxa
    obtain ⟨n, hn, e⟩ := List.mem_map.1 hxb
    obtain ⟨x, hx, ix, _, _, rfl⟩ := hfound a ha m hm
    obtain ⟨y, hy, iy, _, _, rfl⟩ := hfound b hb n hn
    exact hne (h.same2 x hx y hy (by simp [ix]) (by simp [iy]) ⟨m, hm, n, hn, e.symm⟩)
  have hhs : ∀ x, x ∈ ((P.map cmdText).flatMap (found t)).map lstrip ↔
      ∃ key ∈ positiveKeys d, ∃ m ∈ found t key, lstrip m = x := by
    intro x
    rw [List.mem_map]
    constructor
    · rintro ⟨m, hm, rfl⟩
      obtain ⟨a, ha, hm⟩ := List.mem_flatMap.1 hm
      obtain ⟨x, hx, i1, i2, _, rfl⟩ := hfound a ha m hm
      exact ⟨_, mem_positiveKeys.2 ⟨x, hx, i1, i2, rfl⟩, m, hm, rfl⟩
    · rintro ⟨key, hkey, m, hm, rfl⟩
      refine ⟨m, List.mem_flatMap.2 ⟨key, List.mem_map.2 ⟨_, hP ▸ side_leaf h hkey (List.ne_nil_of_mem hm),
        cmdText_none _ _⟩, hm⟩, rfl⟩
  -- a negation that is taken away is the one of a removed line with the same head
  have htake : ∀ y ∈ N, ∀ key ∈ positiveKeys d, ∀ m ∈ found t key, takes (lstrip m) (cmdText y) = true →
      ∃ x ∈ d, x.info = .del ∧ y = .mk (undo t x.key) none .ctx ∧ ∃ n ∈ found t x.key, strip m = strip n := by
    intro y hy key hkey m hm ht
    rw [← hN, sideList_eq, List.mem_flatMap] at hy
    obtain ⟨x, hx, hy⟩ := hy
    obtain ⟨z, hz, _, _, rfl⟩ := mem_positiveKeys.1 hkey
    have pz := (h.line z hz).of_found (List.ne_nil_of_mem hm)
    rcases mem_sideItem.1 hy with ⟨_, _, h3, rfl⟩ | ⟨hi, _, h3, rfl⟩ | ⟨_, hb, _⟩ | ⟨_, l, hs, hne, rfl⟩
    · rw [cmdText_none, takes_line (h.line x hx).good, List.isPrefixOf_iff_prefix] at ht
      cases h.line x hx with
      | line hl => rw [notNo hl.positive] at h3; cases h3
      | toggle hl =>
        rw [hl.eq] at ht
        exact absurd ((List.prefix_append_right_inj _).1 ht) (hl.free _ pz m hm)
    · rw [cmdText_none, takes_line (h.line x hx).undoGood, List.isPrefixOf_iff_prefix] at ht
      rw [(h.line x hx).isNo_undo] at h3
      refine ⟨x, hx, hi, rfl, ?_⟩
      cases h.line x hx with
      | line hl => rw [hl.undo] at ht; exact h.heads.known _ _ pz hl m hm ht
      | toggle hl => rw [List.isPrefixOf_iff_prefix.2 hl.negative] at h3; cases h3
    · cases hb
    · have hno : ¬ "no ".toList <+: x.key := fun hno => by
        have := h.leaf x hx (Or.inr hno)
        rw [hs] at this; cases this
      have px := ((h.line x hx).keep hno).1
      rcases cmdText_cases (.mk x.key (some (tree t true l)) .ctx) with e | ⟨r, e⟩
      · have := cmdText_multi (z := .mk x.key (some (tree t true l)) .ctx) hne rfl
        rw [e] at this
        exact absurd this px.good.noFeed
      · rw [e] at ht
        exact absurd ((takes_section (h := lstrip m) (r := r) px).symm.trans ht) (by decide)
  have e4 : spend (((P.map cmdText).flatMap (found t)).map lstrip) (N.map cmdText) =
      (N.filter (keepNeg t (positiveKeys d))).map cmdText := by
    rw [spend_filter, List.filter_map]
    · congr 1
      refine List.filter_congr fun y hy => ?_
      simp only [Function.comp]
      have hany : (((P.map cmdText).flatMap (found t)).map lstrip).any (fun h => takes h (cmdText y)) = true ↔
          ∃ key ∈ positiveKeys d, ∃ m ∈ found t key, takes (lstrip m) (cmdText y) = true := by
        rw [List.any_eq_true]
        constructor
        · rintro ⟨x, hx, ht⟩
          obtain ⟨key, hkey, m, hm, rfl⟩ := (hhs x).1 hx
          exact ⟨key, hkey, m, hm, ht⟩
        · rintro ⟨key, hkey, m, hm, ht⟩
          exact ⟨_, (hhs _).2 ⟨key, hkey, m, hm, rfl⟩, ht⟩
      unfold keepNeg
      cases hs : y.sub with
      | some s =>
        simp only [Option.isSome_some, Bool.true_or, Bool.not_eq_true']
        rw [Bool.eq_false_iff]
        intro hc
        obtain ⟨key, hkey, m, hm, ht⟩ := hany.1 hc
        obtain ⟨x, _, _, rfl, _⟩ := htake y hy key hkey m hm ht
        cases hs
      | none =>
        simp only [Option.isSome_none, Bool.false_or]
        congr 1
        rw [Bool.eq_iff_iff, hany]
        have hkey : cmdText y = y.key ∧ GoodLine t y.key := by
          rw [← hN, sideList_eq, List.mem_flatMap] at hy
          obtain ⟨x, hx, hy⟩ := hy
          obtain ⟨ky, sy, iy⟩ := y
          simp only [Item.sub] at hs
          subst hs
          refine ⟨cmdText_none _ _, ?_⟩
          rcases sideItem_key hy with ⟨_, e⟩ | ⟨_, e, _⟩
          · rw [e]; exact (h.line x hx).good
          · rw [e]; exact (h.line x hx).undoGood
        unfold dropped
        simp only [List.any_eq_true, hkey.1, takes_line hkey.2]
    · rw [List.pairwise_map]
      rw [List.nodup_iff_pairwise_ne, List.pairwise_map] at nraw
      refine List.Pairwise.imp_of_mem ?_ nraw
      rintro a b ha hb hne x hx ⟨hta, htb⟩
      obtain ⟨key, hkey, m, hm, rfl⟩ := (hhs x).1 hx
      obtain ⟨u, hu, iu, rfl, n, hn, e⟩ := htake a ha key hkey m hm hta
      obtain ⟨v, hv, iv, rfl, n', hn', e'⟩ := htake b hb key hkey m hm htb
      have := h.same1 u hu v hv (by simp [iu]) (by simp [iv]) ⟨n, hn, n', hn', e.symm.trans e'⟩
      exact hne (congrArg (undo t) this)
  rw [e3] at e1
  rw [e4] at e2
  cases ho : overwrite t ⟨P.map cmdText, N.map cmdText⟩
  rw [ho] at e1 e2
  simp only at e1 e2
  rw [e1, e2]

theorem CmdTree.filter {t : Tables} {l : List Item} (h : CmdTree t l) (p : Item → Bool) : CmdTree t (l.filter p) := by
  refine ⟨?_, fun a ha => h.mark a (List.mem_filter.1 ha).1⟩
  have := h.good
  clear h
  induction this with
  | nil => exact .nil
  | leaf hk _ ih =>
    rw [List.filter_cons]
    split
    · exact .leaf hk ih
    · exact ih
  | node hk hne hs _ _ ih =>
    rw [List.filter_cons]
    split
    · exact .node hk hne hs ih
    · exact ih

theorem textOk {t : Tables} {on : Str → Prop} {d : List Item} (h : DiffOk t on d) : TextOk t d := by
  induction h with
  | @mk d hl _ ih =>
    obtain ⟨e, g1, g2⟩ := cliLoop_eq (keys := positiveKeys d) hl.line hl.addSub ih ⟨[], []⟩
    have g3 := g2.filter (keepNeg t (positiveKeys d))
    have eP : tree t false d = sideList t false (positiveKeys d) d := rfl
    have eN : tree t true d = ((sideList t true (positiveKeys d) d).filter (keepNeg t (positiveKeys d))).reverse := rfl
    refine ⟨?_, g1, eN ▸ g3.reverse⟩
    unfold list2cli
    rw [e]
    simp only [List.nil_append]
    have npos := sideList_nodup hl false
    have nneg := (sideList_nodup hl true).sublist ((List.filter_sublist (p := keepNeg t (positiveKeys d))).map _)
    have mem : ∀ b, ∀ y ∈ sideList t b (positiveKeys d) d, '\n' ∉ cmdText y →
        ∃ x ∈ d, x.marked ∧ cmdText y = x.command t ∧ "no ".toList.isPrefixOf (x.command t) = b := by
      intro b y hy hny
      rw [sideList_eq, List.mem_flatMap] at hy
      obtain ⟨x, hx, hy⟩ := hy
      rcases mem_sideItem.1 hy with ⟨h1, _, h3, rfl⟩ | ⟨h1, _, h3, rfl⟩ | ⟨h1, hb, l, hs, rfl⟩ | ⟨_, l, _, hne, rfl⟩
      · have e : x.command t = x.key := by simp [Item.command, h1]
        exact ⟨x, hx, by simp [Item.marked, h1], by rw [cmdText_none, e], e ▸ h3⟩
      · have e : x.command t = undo t x.key := by simp [Item.command, h1]
        exact ⟨x, hx, by simp [Item.marked, h1], by rw [cmdText_none, e], e ▸ h3⟩
      · exact absurd (cmdText_multi ((hl.addSub x hx h1 l hs).1) rfl) hny
      · exact absurd (cmdText_multi hne rfl) hny
    have apart : ∀ b, ∀ a ∈ sideList t b (positiveKeys d) d, ∀ c ∈ sideList t b (positiveKeys d) d,
        '\n' ∉ cmdText a → '\n' ∉ cmdText c → cmdText a <+: cmdText c → cmdText a = cmdText c := by
      intro b a ha c hc hna hnc hp
      obtain ⟨x, hx, m1, e1, n1⟩ := mem b a ha hna
      obtain ⟨y, hy, m2, e2, n2⟩ := mem b c hc hnc
      rw [e1, e2] at hp ⊢
      exact hl.cmds x hx y hy m1 m2 (n1.trans n2.symm) hp
    unfold finishCli
    rw [overwrite_diff hl g1.good]
    simp only
    congr 1
    · rw [removeDuplicates_nodup (cmdText_nodup g1.good.noFeed npos) (by simp), removePositive_id, joinLines_cmdText, eP]
      intro a ha b hb hna hnb hs
      obtain ⟨x, hx, rfl⟩ := List.mem_map.1 ha
      obtain ⟨y, hy, rfl⟩ := List.mem_map.1 hb
      exact hs.2 (apart false x hx y hy hna hnb hs.1)
    · rw [removeDuplicates_nodup (cmdText_nodup g3.good.noFeed nneg) (by simp), removeNegative_id,
        ← List.map_reverse, joinLines_cmdText, eN]
      intro a ha b hb hna hnb hs
      obtain ⟨x, hx, rfl⟩ := List.mem_map.1 ha
      obtain ⟨y, hy, rfl⟩ := List.mem_map.1 hb
      exact hs.2 (apart true x (List.mem_filter.1 hx).1 y (List.mem_filter.1 hy).1 hna hnb hs.1)

end NcDiff.Running
