import Verif.Spec.Hoist
import Verif.Proof.Reorder
import Verif.Proof.Lines
/-!
# Proofs about commands that look like children but are siblings
-/

namespace NcDiff.Running

theorem allCommands_filter (p : Item → Bool) (l : List Item) :
    (allCommands (l.filter fun c => !p c) ++ allCommands (l.filter p)).Perm (allCommands l) := by
  induction l with
  | nil => simp [allCommands]
  | cons x r ih =>
    cases h : p x
    · rw [List.filter_cons_of_pos (by simp [h]), List.filter_cons_of_neg (by simp [h])]
      simp only [allCommands, List.append_assoc]
      exact List.Perm.append_left _ ih
    · rw [List.filter_cons_of_neg (by simp [h]), List.filter_cons_of_pos (by simp [h])]
      simp only [allCommands]
      refine List.Perm.trans ?_ (List.Perm.append_left _ ih)
      rw [← List.append_assoc, ← List.append_assoc]
      exact List.Perm.append_right _ List.perm_append_comm

/-! ## Nothing is lost -/

theorem takeSiblings_perm : ∀ (rs : List (Str → Bool)) (it : Item),
    (itemCommands (takeSiblings rs it).1 ++ allCommands (takeSiblings rs it).2).Perm (itemCommands it)
  | [], it => by simp [takeSiblings, allCommands]
  | rx :: r, .mk k none i => by simp [takeSiblings, allCommands]
  | rx :: r, .mk k (some l) i => by
    rw [takeSiblings]
    simp only
    split
    · have h := allCommands_filter (fun c => rx c.key) l
      simp only [itemCommands, List.cons_append]
      refine List.Perm.cons _ ?_
      simp only [subCommands]
      refine List.Perm.trans ?_ h
      by_cases he : (l.filter fun c => !rx c.key) = []
      · rw [if_pos he, he]; simp [subCommands, allCommands]
      · rw [if_neg he]; simp [subCommands]
    · exact takeSiblings_perm r _

theorem siblingLoop_perm {t : Tables} {rec : List Item → List Item} (hr : ∀ l, (allCommands (rec l)).Perm (allCommands l)) :
    ∀ (n : Nat) (l : List Item), (allCommands (siblingLoop t rec n l)).Perm (allCommands l)
  | 0, _ => .refl _
  | _ + 1, [] => .refl _
  | n + 1, it :: r => by
    have h := takeSiblings_perm t.sibling it
    have ih := siblingLoop_perm (t := t) hr n ((takeSiblings t.sibling it).2 ++ r)
    rw [siblingLoop]
    generalize takeSiblings t.sibling it = p at *
    obtain ⟨⟨k, s, i⟩, sibs⟩ := p
    have h1 : (itemCommands (match (Item.mk k s i) with
        | .mk k (some s) i => .mk k (some (rec s)) i
        | .mk k none i => .mk k none i)).Perm (itemCommands (.mk k s i)) := by
      cases s with
      | none => exact .refl _
      | some s => simpa [itemCommands, subCommands] using hr s
    simp only [allCommands]
    refine (List.Perm.append h1 ih).trans ?_
    rw [allCommands_append, ← List.append_assoc]
    exact List.Perm.append_right _ h

theorem siblingFuel_perm {t : Tables} : ∀ (n : Nat) (l : List Item), (allCommands (siblingFuel t n l)).Perm (allCommands l)
  | 0, _ => .refl _
  | n + 1, l => siblingLoop_perm (siblingFuel_perm n) _ l

/-! ## The meaning -/

theorem hoistList_append (rx : Str → Bool) (a b : List Item) : hoistList rx (a ++ b) = hoistList rx a ++ hoistList rx b := by
  induction a with
  | nil => simp [hoistList]
  | cons x r ih => simp [hoistList, ih]

theorem Flat.append {rx : Str → Bool} {a b : List Item} (ha : Flat rx a) (hb : Flat rx b) : Flat rx (a ++ b) := by
  induction a with
  | nil => exact hb
  | cons x r ih => cases ha with | cons h1 h2 h3 => exact .cons h1 h2 (ih h3)

theorem Flat.filter {rx : Str → Bool} {l : List Item} (p : Item → Bool) (h : Flat rx l) : Flat rx (l.filter p) := by
  induction l with
  | nil => exact .nil
  | cons x r ih =>
    cases h with
    | cons h1 h2 h3 =>
      rw [List.filter_cons]
      split
      · exact .cons h1 h2 (ih h3)
      · exact ih h3

mutual
theorem hoistList_flat (rx : Str → Bool) : ∀ l : List Item, Flat rx (hoistList rx l)
  | [] => by rw [hoistList]; exact .nil
  | a :: r => by rw [hoistList]; exact (hoistItem_flat rx a).append (hoistList_flat rx r)
theorem hoistItem_flat (rx : Str → Bool) : ∀ a : Item, Flat rx (hoistItem rx a)
  | .mk k none i => by rw [hoistItem]; exact .cons (by simp) (by simp) .nil
  | .mk k (some s) i => by
    have ih := hoistList_flat rx s
    rw [hoistItem]
    split
    · refine .cons ?_ ?_ (ih.filter _)
      · intro l hl
        unfold sectionOf at hl
        split at hl
        · simp at hl
        · obtain rfl := Option.some.inj hl; exact ih.filter _
      · intro _ l hl
        unfold sectionOf at hl
        split at hl
        · simp at hl
        · rename_i hne
          obtain rfl := Option.some.inj hl
          refine ⟨hne, fun c hc => ?_⟩
          simpa using (List.mem_filter.1 hc).2
    · rename_i hk
      exact .cons (by rintro l ⟨⟩; exact ih) (fun h => absurd h hk) .nil
end

theorem filter_none {rx : Str → Bool} {s : List Item} (h : ∀ c ∈ s, rx c.key = false) :
    (s.filter fun c => rx c.key) = [] ∧ (s.filter fun c => !rx c.key) = s :=
  ⟨List.filter_eq_nil_iff.2 fun c hc => by simp [h c hc], List.filter_eq_self.2 fun c hc => by simp [h c hc]⟩

theorem Flat.hoist {rx : Str → Bool} {l : List Item} (h : Flat rx l) : hoistList rx l = l := by
  induction h with
  | nil => rw [hoistList]
  | @cons k s i r _ h2 _ ih ihr =>
    rw [hoistList, ihr]
    cases s with
    | none => rw [hoistItem]; rfl
    | some s =>
      rw [hoistItem, ih s rfl]
      split
      · rename_i hk
        obtain ⟨hne, hc⟩ := h2 hk s rfl
        rw [(filter_none hc).1, (filter_none hc).2, sectionOf, if_neg hne]; rfl
      · rfl

/-- Hoisting an item without a match gives one item without a match. -/
theorem hoistItem_plain {rx : Str → Bool} {a : Item} (h : rx a.key = false) : ∃ b, hoistItem rx a = [b] ∧ rx b.key = false := by
  obtain ⟨k, s, i⟩ := a
  cases s with
  | none => exact ⟨_, by rw [hoistItem], h⟩
  | some s =>
    have hk : rx k = false := h
    exact ⟨.mk k (some (hoistList rx s)) i, by rw [hoistItem, if_neg (by simp [hk])], h⟩

theorem hoist_filter {rx : Str → Bool} : ∀ {s : List Item}, Flat rx (s.filter fun c => rx c.key) →
    ((hoistList rx s).filter fun c => rx c.key) = (s.filter fun c => rx c.key) ∧
    ((hoistList rx s).filter fun c => !rx c.key) = hoistList rx (s.filter fun c => !rx c.key)
  | [], _ => by simp [hoistList]
  | a :: r, h => by
    cases hk : rx a.key
    · rw [List.filter_cons_of_neg (by simp [hk])] at h
      obtain ⟨b, hb, hb'⟩ := hoistItem_plain hk
      obtain ⟨i1, i2⟩ := hoist_filter h
      rw [List.filter_cons_of_neg (by simp [hk]), List.filter_cons_of_pos (by simp [hk]), hoistList, hoistList, hb]
      simp [hb', i1, i2]
    · rw [List.filter_cons_of_pos (by simp [hk])] at h
      have h1 : Flat rx [a] := by cases h with | cons h1 h2 _ => exact .cons h1 h2 .nil
      have h2 : Flat rx (r.filter fun c => rx c.key) := by cases h with | cons _ _ h3 => exact h3
      have e : hoistItem rx a = [a] := by
        have := h1.hoist
        simpa [hoistList] using this
      obtain ⟨i1, i2⟩ := hoist_filter h2
      rw [List.filter_cons_of_pos (by simp [hk]), List.filter_cons_of_neg (by simp [hk]), hoistList, e]
      simp [hk, i1, i2]

theorem hoistList_plain {rx : Str → Bool} {s : List Item} (h : ∀ c ∈ s, rx c.key = false) :
    ∀ c ∈ hoistList rx s, rx c.key = false := by
  induction s with
  | nil => simp [hoistList]
  | cons a r ih =>
    obtain ⟨b, hb, hb'⟩ := hoistItem_plain (h a (by simp))
    rw [hoistList, hb]
    intro c hc
    rcases List.mem_append.1 hc with hc | hc
    · rw [List.mem_singleton.1 hc]; exact hb'
    · exact ih (fun c hc => h c (by simp [hc])) c hc

/-! ## The code -/

theorem heightList_filter (p : Item → Bool) (l : List Item) : Item.heightList (l.filter p) ≤ Item.heightList l := by
  induction l with
  | nil => exact Nat.le_refl _
  | cons a r ih =>
    rw [List.filter_cons]
    split
    · simp only [Item.heightList]; omega
    · simp only [Item.heightList]; omega

theorem take_none {rx : Str → Bool} (k : Str) (i : Info) : takeSiblings [rx] (.mk k none i) = (.mk k none i, []) := rfl

theorem take_plain {rx : Str → Bool} {k : Str} (s : List Item) (i : Info) (h : rx k = false) :
    takeSiblings [rx] (.mk k (some s) i) = (.mk k (some s) i, []) := by
  simp [takeSiblings, h]

theorem take_match {rx : Str → Bool} {k : Str} (s : List Item) (i : Info) (h : rx k = true) :
    takeSiblings [rx] (.mk k (some s) i) =
      (.mk k (sectionOf (s.filter fun c => !rx c.key)) i, s.filter fun c => rx c.key) := by
  simp only [takeSiblings, h, if_true, sectionOf]

theorem flat_loop {t : Tables} {rx : Str → Bool} (ht : t.sibling = [rx]) {rec : List Item → List Item}
    (hr : ∀ l, Flat rx l → rec l = l) : ∀ (n : Nat) {l : List Item}, Flat rx l → siblingLoop t rec n l = l
  | 0, _, _ => rfl
  | _ + 1, [], _ => rfl
  | n + 1, .mk k s i :: r, h => by
    cases h with
    | cons h1 h2 h3 =>
      have ih := flat_loop ht hr n h3
      rw [siblingLoop, ht]
      cases s with
      | none => rw [take_none]; simp only [List.nil_append, ih]
      | some s =>
        cases hk : rx k
        · rw [take_plain s i hk]; simp only [List.nil_append, ih, hr s (h1 s rfl)]
        · obtain ⟨hne, hc⟩ := h2 hk s rfl
          rw [take_match s i hk, (filter_none hc).1, (filter_none hc).2, sectionOf, if_neg hne]
          simp only [List.nil_append, ih, hr s (h1 s rfl)]

theorem flat_fuel {t : Tables} {rx : Str → Bool} (ht : t.sibling = [rx]) :
    ∀ (n : Nat) (l : List Item), Flat rx l → siblingFuel t n l = l
  | 0, _, _ => rfl
  | n + 1, _, h => flat_loop ht (flat_fuel ht n) _ h

theorem section_sub {k : Str} {i : Info} {l : List Item} {rec : List Item → List Item} {l' : List Item} (h : rec l = l')
    (hne : l = [] ↔ l' = []) :
    (match (Item.mk k (sectionOf l) i) with
      | .mk k (some s) i => Item.mk k (some (rec s)) i
      | .mk k none i => .mk k none i) = .mk k (sectionOf l') i := by
  unfold sectionOf
  by_cases he : l = []
  · rw [if_pos he, if_pos (hne.1 he)]
  · rw [if_neg he, if_neg (fun h => he (hne.2 h))]; simp only [h]

theorem hoistItem_ne (rx : Str → Bool) (a : Item) : hoistItem rx a ≠ [] := by
  obtain ⟨k, s, i⟩ := a
  cases s with
  | none => rw [hoistItem]; simp
  | some s => rw [hoistItem]; split <;> simp

theorem hoistList_nil {rx : Str → Bool} {l : List Item} : l = [] ↔ hoistList rx l = [] := by
  cases l with
  | nil => simp [hoistList]
  | cons a r => simp [hoistList, hoistItem_ne]

theorem nest_loop {t : Tables} {rx : Str → Bool} (ht : t.sibling = [rx]) {rec : List Item → List Item} {n : Nat}
    (hf : ∀ l, Flat rx l → rec l = l) (hr : ∀ l, OneNest rx l → Item.heightList l ≤ n → rec l = hoistList rx l) :
    ∀ {l : List Item}, OneNest rx l → Item.heightList l ≤ n + 1 → siblingLoop t rec l.length l = hoistList rx l := by
  intro l h
  induction h with
  | nil => intro _; rw [hoistList]; rfl
  | @leaf k i r _ ih =>
    intro hh
    rw [List.length_cons, siblingLoop, ht, take_none, hoistList, hoistItem]
    simp only [List.nil_append, List.cons_append]
    rw [ih (by simp only [Item.heightList] at hh; omega)]
  | @plain k s i r hk hs _ _ ih =>
    intro hh
    simp only [Item.heightList, Item.height, Item.heightSub] at hh
    rw [List.length_cons, siblingLoop, ht, take_plain s i hk, hoistList, hoistItem, if_neg (by simp [hk])]
    simp only [List.nil_append, List.cons_append]
    rw [ih (by omega), hr s hs (by omega)]
  | @nest k s i r hk hs1 hs2 hr1 _ =>
    intro hh
    simp only [Item.heightList, Item.height, Item.heightSub] at hh
    have hle : Item.heightList (s.filter fun c => !rx c.key) ≤ Item.heightList s := heightList_filter _ s
    rw [List.length_cons, siblingLoop, ht, take_match s i hk, hoistList, hoistItem, if_pos hk, (hoist_filter hs1).1,
      (hoist_filter hs1).2, hr1.hoist]
    exact congrArg₂ List.cons (section_sub (hr _ hs2 (by omega)) hoistList_nil) (flat_loop ht hf _ (hs1.append hr1))
  | @alone k s i r hk hc hs _ _ ih =>
    intro hh
    simp only [Item.heightList, Item.height, Item.heightSub] at hh
    rw [List.length_cons, siblingLoop, ht, take_match s i hk, (filter_none hc).1, (filter_none hc).2, hoistList, hoistItem, if_pos hk,
      (filter_none (hoistList_plain hc)).1, (filter_none (hoistList_plain hc)).2]
    simp only [List.nil_append, List.cons_append]
    exact congrArg₂ List.cons (section_sub (hr s hs (by omega)) hoistList_nil) (ih (by omega))

theorem nest_fuel {t : Tables} {rx : Str → Bool} (ht : t.sibling = [rx]) : ∀ (n : Nat) (l : List Item), OneNest rx l →
    Item.heightList l ≤ n → siblingFuel t n l = hoistList rx l
  | 0, l, _, hh => by
    cases l with
    | nil => rw [hoistList]; rfl
    | cons a r => obtain ⟨k, s, i⟩ := a; simp [Item.heightList, Item.height] at hh
  | n + 1, _, h, hh => nest_loop ht (flat_fuel ht n) (nest_fuel ht n) h hh

end NcDiff.Running
