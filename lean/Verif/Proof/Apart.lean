import Verif.Proof.Keys
import Verif.Proof.Fault
/-!
# What a delta does to nodes of some names depends on the nodes of these names only
-/

namespace NcDiff
namespace Apart

/-! ## Part of the children -/

section part
variable {P : QName → Bool}

/-- Is the name of this child one of them? -/
def at_ (P : QName → Bool) (c : Cell) : Bool := P c.2.tag

theorem insertBefore_part {p q : Cell → Bool} (hpq : ∀ x, p x = true → q x = true) {c : Cell} (hc : q c = true) :
    ∀ st, (insertBefore p c st).map (List.filter q) = insertBefore p c (st.filter q) ∧
      ∀ st', insertBefore p c st = some st' → st'.filter (fun x => !q x) = st.filter (fun x => !q x)
  | [] => ⟨rfl, by simp [insertBefore]⟩
  | x :: r => by
    obtain ⟨h1, h2⟩ := insertBefore_part hpq hc r
    rw [insertBefore]
    by_cases hx : p x = true
    · rw [if_pos hx]
      refine ⟨?_, fun st' e => ?_⟩
      · simp [hc, hpq x hx, insertBefore, hx]
      · cases e; simp [hc]
    · rw [if_neg hx]
      refine ⟨?_, fun st' e => ?_⟩
      · rw [Option.map_map]
        by_cases hq : q x = true
        · rw [List.filter_cons_of_pos hq, insertBefore, if_neg hx, ← h1, Option.map_map]
          congr 1; funext l; simp [hq]
        · rw [List.filter_cons_of_neg hq, ← h1]
          congr 1; funext l; simp [hq]
      · obtain ⟨l, hl, rfl⟩ := Option.map_eq_some_iff.1 e
        rw [List.filter_cons, List.filter_cons, h2 l hl]

theorem insertAfter_part {p q : Cell → Bool} (hpq : ∀ x, p x = true → q x = true) {c : Cell} (hc : q c = true) :
    ∀ st, (insertAfter p c st).map (List.filter q) = insertAfter p c (st.filter q) ∧
      ∀ st', insertAfter p c st = some st' → st'.filter (fun x => !q x) = st.filter (fun x => !q x)
  | [] => ⟨rfl, by simp [insertAfter]⟩
  | x :: r => by
    obtain ⟨h1, h2⟩ := insertAfter_part hpq hc r
    rw [insertAfter]
    by_cases hx : p x = true
    · rw [if_pos hx]
      refine ⟨?_, fun st' e => ?_⟩
      · simp [hc, hpq x hx, insertAfter, hx]
      · cases e; simp [hc, hpq x hx]
    · rw [if_neg hx]
      refine ⟨?_, fun st' e => ?_⟩
      · rw [Option.map_map]
        by_cases hq : q x = true
        · rw [List.filter_cons_of_pos hq, insertAfter, if_neg hx, ← h1, Option.map_map]
          congr 1; funext l; simp [hq]
        · rw [List.filter_cons_of_neg hq, ← h1]
          congr 1; funext l; simp [hq]
      · obtain ⟨l, hl, rfl⟩ := Option.map_eq_some_iff.1 e
        rw [List.filter_cons, List.filter_cons, h2 l hl]

theorem insertAfterLast_part {p q : Cell → Bool} (hpq : ∀ x, p x = true → q x = true) {c : Cell} (hc : q c = true) :
    ∀ st, (insertAfterLast p c st).map (List.filter q) = insertAfterLast p c (st.filter q) ∧
      ∀ st', insertAfterLast p c st = some st' → st'.filter (fun x => !q x) = st.filter (fun x => !q x)
  | [] => ⟨rfl, by simp [insertAfterLast]⟩
  | x :: r => by
    obtain ⟨h1, h2⟩ := insertAfterLast_part hpq hc r
    rw [insertAfterLast]
    cases hr : insertAfterLast p c r with
    | some l =>
      rw [hr] at h1 h2
      simp only [Option.map_some] at h1
      refine ⟨?_, fun st' e => ?_⟩
      · simp only [Option.map_some]
        by_cases hq : q x = true
        · rw [List.filter_cons_of_pos hq, List.filter_cons_of_pos hq, insertAfterLast, ← h1]
        · rw [List.filter_cons_of_neg hq, List.filter_cons_of_neg hq, ← h1]
      · cases e
        rw [List.filter_cons, List.filter_cons, h2 l rfl]
    | none =>
      rw [hr] at h1
      simp only [Option.map_none] at h1
      by_cases hx : p x = true
      · simp only [if_pos hx, Option.map_some]
        refine ⟨?_, fun st' e => ?_⟩
        · rw [List.filter_cons_of_pos (hpq x hx), List.filter_cons_of_pos hc, List.filter_cons_of_pos (hpq x hx),
            insertAfterLast, ← h1]
          simp [hx]
        · cases e; simp [hc, hpq x hx]
      · simp only [if_neg hx, Option.map_none]
        refine ⟨?_, fun st' e => by cases e⟩
        by_cases hq : q x = true
        · rw [List.filter_cons_of_pos hq, insertAfterLast, ← h1]
          simp [hx]
        · rw [List.filter_cons_of_neg hq, ← h1]

/-- Handles stand for children of given names. -/
def Inv (τ : Nat → QName) (st : List Cell) : Prop := ∀ c ∈ st, ∀ h, c.1 = some h → c.2.tag = τ h

/-- The same outcome for a part of the children; the other children stay, and handles stand for the same names. -/
def Loc (P : QName → Bool) (τ : Nat → QName) (st : List Cell) : Except Err (List Cell) → Except Err (List Cell) → Prop
  | .error e, .error e' => e = e'
  | .ok a, .ok b => a.filter (at_ P) = b ∧ a.filter (fun c => !at_ P c) = st.filter (fun c => !at_ P c) ∧ Inv τ a
  | _, _ => False

theorem Loc.ok {τ : Nat → QName} {st : List Cell} (hi : Inv τ st) : Loc P τ st (.ok st) (.ok (st.filter (at_ P))) :=
  ⟨rfl, rfl, hi⟩

theorem Loc.append {τ : Nat → QName} {st : List Cell} (hi : Inv τ st) {c : Cell} (hc : at_ P c = true)
    (hτ : ∀ h, c.1 = some h → c.2.tag = τ h) :
    Loc P τ st (.ok (st ++ [c])) (.ok (st.filter (at_ P) ++ [c])) := by
  refine ⟨by simp [hc], by simp [hc], ?_⟩
  intro x hx
  rcases List.mem_append.1 hx with hx | hx
  · exact hi x hx
  · rw [List.mem_singleton] at hx; subst hx; exact hτ

theorem insertBefore_mem {p : Cell → Bool} {c : Cell} : ∀ {st st' : List Cell}, insertBefore p c st = some st' →
    ∀ x ∈ st', x = c ∨ x ∈ st
  | [], _, h, _, _ => by simp [insertBefore] at h
  | y :: r, st', h, x, hx => by
    rw [insertBefore] at h
    split at h
    · cases h; simpa using hx
    · obtain ⟨l, hl, rfl⟩ := Option.map_eq_some_iff.1 h
      rcases List.mem_cons.1 hx with rfl | hx
      · simp
      · rcases insertBefore_mem hl x hx with h | h
        · exact .inl h
        · simp [h]

theorem insertAfter_mem {p : Cell → Bool} {c : Cell} : ∀ {st st' : List Cell}, insertAfter p c st = some st' →
    ∀ x ∈ st', x = c ∨ x ∈ st
  | [], _, h, _, _ => by simp [insertAfter] at h
  | y :: r, st', h, x, hx => by
    rw [insertAfter] at h
    split at h
    · cases h
      rcases List.mem_cons.1 hx with rfl | hx
      · simp
      · rcases List.mem_cons.1 hx with rfl | hx
        · simp
        · simp [hx]
    · obtain ⟨l, hl, rfl⟩ := Option.map_eq_some_iff.1 h
      rcases List.mem_cons.1 hx with rfl | hx
      · simp
      · rcases insertAfter_mem hl x hx with h | h
        · exact .inl h
        · simp [h]

theorem insertAfterLast_mem {p : Cell → Bool} {c : Cell} : ∀ {st st' : List Cell}, insertAfterLast p c st = some st' →
    ∀ x ∈ st', x = c ∨ x ∈ st
  | [], _, h, _, _ => by simp [insertAfterLast] at h
  | y :: r, st', h, x, hx => by
    rw [insertAfterLast] at h
    split at h
    · next l hl =>
      cases h
      rcases List.mem_cons.1 hx with rfl | hx
      · simp
      · rcases insertAfterLast_mem hl x hx with h | h
        · exact .inl h
        · simp [h]
    · split at h
      · cases h
        rcases List.mem_cons.1 hx with rfl | hx
        · simp
        · rcases List.mem_cons.1 hx with rfl | hx
          · simp
          · simp [hx]
      · cases h

theorem Inv.of_mem {τ : Nat → QName} {st st' : List Cell} {c : Cell} (hi : Inv τ st)
    (hτ : ∀ h, c.1 = some h → c.2.tag = τ h) (hm : ∀ x ∈ st', x = c ∨ x ∈ st) : Inv τ st' := by
  intro x hx
  rcases hm x hx with rfl | h
  · exact hτ
  · exact hi x h

/-- Three ways of inserting. -/
def Inserts (ins : (Cell → Bool) → Cell → List Cell → Option (List Cell)) : Prop :=
  (∀ {p q : Cell → Bool}, (∀ x, p x = true → q x = true) → ∀ {c : Cell}, q c = true →
    ∀ st, (ins p c st).map (List.filter q) = ins p c (st.filter q) ∧
      ∀ st', ins p c st = some st' → st'.filter (fun x => !q x) = st.filter (fun x => !q x)) ∧
  ∀ {p : Cell → Bool} {c : Cell} {st st' : List Cell}, ins p c st = some st' → ∀ x ∈ st', x = c ∨ x ∈ st

theorem inserts_before : Inserts insertBefore := ⟨insertBefore_part, insertBefore_mem⟩
theorem inserts_after : Inserts insertAfter := ⟨insertAfter_part, insertAfter_mem⟩
theorem inserts_last : Inserts insertAfterLast := ⟨insertAfterLast_part, insertAfterLast_mem⟩

theorem Loc.orWrong {ins : (Cell → Bool) → Cell → List Cell → Option (List Cell)} (hins : Inserts ins) {τ : Nat → QName}
    {st : List Cell} (hi : Inv τ st) {c : Cell} (hc : at_ P c = true)
    (hτ : ∀ h, c.1 = some h → c.2.tag = τ h) {p : Cell → Bool} (hp : ∀ x, p x = true → at_ P x = true) :
    Loc P τ st (orWrong (ins p c st)) (orWrong (ins p c (st.filter (at_ P)))) := by
  obtain ⟨h1, h2⟩ := hins.1 hp hc st
  rw [← h1]
  cases hx : ins p c st with
  | none => exact rfl
  | some st' => exact ⟨rfl, h2 st' hx, hi.of_mem hτ (hins.2 hx)⟩

theorem Loc.put {ins : (Cell → Bool) → Cell → List Cell → Option (List Cell)} (hins : Inserts ins) {τ : Nat → QName}
    {st : List Cell} (hi : Inv τ st) {c : Cell} (hc : at_ P c = true)
    (hτ : ∀ h, c.1 = some h → c.2.tag = τ h) {p : Cell → Bool} (hp : ∀ x, p x = true → at_ P x = true) :
    Loc P τ st (.ok ((ins p c st).getD (st ++ [c]))) (.ok ((ins p c (st.filter (at_ P))).getD (st.filter (at_ P) ++ [c]))) := by
  obtain ⟨h1, h2⟩ := hins.1 hp hc st
  rw [← h1]
  cases hx : ins p c st with
  | none => exact Loc.append hi hc hτ
  | some st' => exact ⟨rfl, h2 st' hx, hi.of_mem hτ (hins.2 hx)⟩

/-- The anchor is a child of this name. -/
def AnchorAt (P : QName → Bool) (a : Except Err (Cell → Bool)) : Prop :=
  ∀ p, a = .ok p → ∀ x, p x = true → at_ P x = true

theorem valueAnchor_at {o : Elem} (ho : P o.tag = true) : AnchorAt P (valueAnchor o) := by
  intro p hp x hx
  unfold valueAnchor at hp
  split at hp
  · cases hp
  · cases hp
    simp only [valueIs, Bool.and_eq_true, decide_eq_true_eq] at hx
    simp [at_, hx.1, ho]

theorem keyAnchor_at {o : Elem} (ho : P o.tag = true) : AnchorAt P (keyAnchor o) := by
  intro p hp x hx
  unfold keyAnchor at hp
  split at hp
  · cases hp
  · cases hp
  · obtain ⟨qs, _, h⟩ := bind_ok.1 hp
    cases h
    simp only [keyIs, Bool.and_eq_true, decide_eq_true_eq] at hx
    simp [at_, hx.1, ho]

theorem hasTag_at {t : QName} (ht : P t = true) : ∀ x, hasTag t x = true → at_ P x = true := by
  intro x hx
  simp only [hasTag, decide_eq_true_eq] at hx
  simp [at_, hx, ht]

theorem placeNew_loc {sn : SNode} {a : Except Err (Cell → Bool)} (ha : AnchorAt P a) {o : Elem} (ho : P o.tag = true)
    {τ : Nat → QName} {st : List Cell} (hi : Inv τ st) {c : Cell} (hc : at_ P c = true)
    (hτ : ∀ h, c.1 = some h → c.2.tag = τ h) :
    Loc P τ st (placeNew sn a o c st) (placeNew sn a o c (st.filter (at_ P))) := by
  unfold placeNew
  split
  · exact Loc.put inserts_last hi hc hτ (hasTag_at ho)
  · split
    · exact Loc.put inserts_before hi hc hτ (hasTag_at ho)
    · split
      · exact Loc.put inserts_last hi hc hτ (hasTag_at ho)
      · split
        · cases hp : a with
          | error e => exact rfl
          | ok p => exact Loc.orWrong inserts_before hi hc hτ (ha p hp)
        · split
          · cases hp : a with
            | error e => exact rfl
            | ok p => exact Loc.orWrong inserts_after hi hc hτ (ha p hp)
          · exact Loc.ok hi

theorem Loc.bind {α : Type} {τ : Nat → QName} {st : List Cell} {x : Except Err α} {f g : α → Except Err (List Cell)}
    (h : ∀ a, x = .ok a → Loc P τ st (f a) (g a)) : Loc P τ st (x >>= f) (x >>= g) := by
  cases x with
  | error e => exact rfl
  | ok a => exact h a rfl

theorem Loc.seq {τ : Nat → QName} {st : List Cell} {x y : Except Err (List Cell)} (h : Loc P τ st x y)
    {f g : List Cell → Except Err (List Cell)}
    (hf : ∀ a, Inv τ a → Loc P τ a (f a) (g (a.filter (at_ P)))) : Loc P τ st (x >>= f) (y >>= g) := by
  cases x with
  | error e =>
    cases y with
    | error e' => cases h; exact rfl
    | ok b => exact h.elim
  | ok a =>
    cases y with
    | error e' => exact h.elim
    | ok b =>
      obtain ⟨rfl, h2, h3⟩ := h
      have := hf a h3
      show Loc P τ st (f a) (g (a.filter (at_ P)))
      revert this
      cases f a <;> cases g (a.filter (at_ P)) <;> simp only [Loc] <;> try exact id
      rintro ⟨a1, a2, a3⟩
      exact ⟨a1, a2.trans h2, a3⟩

/-- `node_add` for one child keeps its name. -/
def KeepsTag (f : AddFn) : Prop := ∀ sc e e', f sc e = .ok e' → e'.tag = e.tag

theorem addWithoutPeer_loc {d : Device} {sc : Scope} {p : Elem × AddFn} (hp : KeepsTag p.2) (ho : P p.1.tag = true)
    {τ : Nat → QName} {st : List Cell} (hi : Inv τ st) :
    Loc P τ st (addWithoutPeer d sc st p) (addWithoutPeer d sc (st.filter (at_ P)) p) := by
  obtain ⟨o, rec⟩ := p
  simp only at hp ho
  have hnone : ∀ e : Elem, ∀ h, ((none, e) : Cell).1 = some h → ((none, e) : Cell).2.tag = τ h := by
    intro e h hh; cases hh
  have hdel : at_ P ((none, o.delAttrib) : Cell) = true := by simp [at_, delAttrib_tag, ho]
  unfold addWithoutPeer
  simp only
  split
  · exact rfl
  · split
    · exact Loc.ok hi
    · split
      · refine Loc.bind fun f _ => ?_
        cases hn : f.node.ntype with
        | leaf => exact Loc.append hi hdel (hnone _)
        | leafList => exact placeNew_loc (valueAnchor_at ho) ho hi hdel (hnone _)
        | container =>
          simp only
          split
          · refine Loc.bind fun e he => ?_
            exact Loc.append hi (by
              have := hp _ _ _ he
              simp only [at_, this]
              exact ho) (hnone _)
          · exact Loc.append hi hdel (hnone _)
        | list =>
          simp only
          split
          · refine Loc.bind fun e he => ?_
            have het : e.tag = o.tag := (listSkeleton_ok he).1
            have h1 := placeNew_loc (P := P) (sn := f.node) (keyAnchor_at ho) ho hi
              (c := (none, e)) (by simp [at_, het, ho]) (hnone _)
            cases hx : placeNew f.node (keyAnchor o) o (none, e) st with
            | error x =>
              rw [hx] at h1
              cases hy : placeNew f.node (keyAnchor o) o (none, e) (st.filter (at_ P)) with
              | error y => rw [hy] at h1; cases h1; exact rfl
              | ok y => rw [hy] at h1; exact h1.elim
            | ok x =>
              rw [hx] at h1
              cases hy : placeNew f.node (keyAnchor o) o (none, e) (st.filter (at_ P)) with
              | error y => rw [hy] at h1; exact h1.elim
              | ok y =>
                show Loc P τ st (rec (.node f.node) e >>= fun e' => placeNew f.node (keyAnchor o) o (none, e') st)
                  (rec (.node f.node) e >>= fun e' => placeNew f.node (keyAnchor o) o (none, e') (st.filter (at_ P)))
                refine Loc.bind fun e' he' => ?_
                exact placeNew_loc (keyAnchor_at ho) ho hi (by simp [at_, hp _ _ _ he', het, ho]) (hnone _)
          · exact placeNew_loc (keyAnchor_at ho) ho hi hdel (hnone _)
        | _ => exact Loc.ok hi
      · exact rfl

/-! ## Children that exist -/

theorem at_of_handle {τ : Nat → QName} {st : List Cell} (hi : Inv τ st) {h : Nat} (hh : P (τ h) = true) {c : Cell}
    (hc : c ∈ st) (hm : isCell h c = true) : at_ P c = true := by
  simp only [isCell, decide_eq_true_eq] at hm
  simp [at_, hi c hc h hm, hh]

theorem removeCell_part {τ : Nat → QName} {st : List Cell} (hi : Inv τ st) {h : Nat} (hh : P (τ h) = true) :
    (removeCell h st).filter (at_ P) = removeCell h (st.filter (at_ P)) ∧
      (removeCell h st).filter (fun c => !at_ P c) = st.filter (fun c => !at_ P c) ∧ Inv τ (removeCell h st) := by
  unfold removeCell
  refine ⟨by rw [List.filter_comm], ?_, fun c hc => hi c (List.mem_of_mem_filter hc)⟩
  rw [List.filter_filter]
  apply List.filter_congr
  intro c hc
  by_cases hm : isCell h c = true
  · simp [at_of_handle hi hh hc hm]
  · simp [hm]

theorem Loc.remove {τ : Nat → QName} {st : List Cell} (hi : Inv τ st) {h : Nat} (hh : P (τ h) = true) :
    Loc P τ st (.ok (removeCell h st)) (.ok (removeCell h (st.filter (at_ P)))) :=
  removeCell_part hi hh

theorem map_part {τ : Nat → QName} {st : List Cell} (hi : Inv τ st) {h : Nat} (hh : P (τ h) = true) {n : Option Nat → Option Nat}
    (hn : n (some h) = some h ∨ n (some h) = none) {e : Elem} (he : e.tag = τ h) :
    (st.map (fun c => if isCell h c then (n c.1, e) else c)).filter (at_ P) =
        (st.filter (at_ P)).map (fun c => if isCell h c then (n c.1, e) else c) ∧
      (st.map (fun c => if isCell h c then (n c.1, e) else c)).filter (fun c => !at_ P c) = st.filter (fun c => !at_ P c) ∧
      Inv τ (st.map (fun c => if isCell h c then (n c.1, e) else c)) := by
  have hsame : ∀ c ∈ st, at_ P (if isCell h c then (n c.1, e) else c) = at_ P c := by
    intro c hc
    split
    · next hm =>
      rw [at_of_handle hi hh hc hm]
      simp [at_, he, hh]
    · rfl
  refine ⟨?_, ?_, ?_⟩
  · rw [List.filter_map]
    congr 1
    exact List.filter_congr hsame
  · rw [List.filter_map]
    have : st.filter ((fun c => !at_ P c) ∘ fun c => if isCell h c then (n c.1, e) else c) = st.filter (fun c => !at_ P c) :=
      List.filter_congr fun c hc => by simp only [Function.comp]; rw [hsame c hc]
    rw [this]
    conv_rhs => rw [← List.map_id (st.filter _)]
    apply List.map_congr_left
    intro c hc
    have hc' := List.mem_filter.1 hc
    split
    · next hm =>
      have := at_of_handle (P := P) hi hh hc'.1 hm
      simp [this] at hc'
    · rfl
  · intro c hc h' hh'
    obtain ⟨c0, hc0, rfl⟩ := List.mem_map.1 hc
    split at hh'
    · next hm =>
      simp only [isCell, decide_eq_true_eq] at hm
      rw [if_pos (by simp [isCell, hm])]
      simp only [hm] at hh'
      rcases hn with hn | hn
      · rw [hn] at hh'; cases hh'; exact he
      · rw [hn] at hh'; cases hh'
    · next hm =>
      rw [if_neg hm]
      exact hi c0 hc0 h' hh'

theorem Loc.set {τ : Nat → QName} {st : List Cell} (hi : Inv τ st) {h : Nat} (hh : P (τ h) = true) {e : Elem} (he : e.tag = τ h) :
    Loc P τ st (.ok (setCell h e st)) (.ok (setCell h e (st.filter (at_ P)))) :=
  map_part hi hh (n := id) (.inl rfl) he

theorem Loc.replace {τ : Nat → QName} {st : List Cell} (hi : Inv τ st) {h : Nat} (hh : P (τ h) = true) {e : Elem}
    (he : e.tag = τ h) : Loc P τ st (.ok (replaceCell h e st)) (.ok (replaceCell h e (st.filter (at_ P)))) :=
  map_part hi hh (n := fun _ => none) (.inr rfl) he

theorem find_part {p q : Cell → Bool} (hpq : ∀ x, p x = true → q x = true) : ∀ st : List Cell,
    (st.filter q).find? p = st.find? p
  | [] => rfl
  | x :: r => by
    by_cases hq : q x = true
    · rw [List.filter_cons_of_pos hq, List.find?_cons, List.find?_cons, find_part hpq r]
    · have hx : ¬ p x = true := fun h => hq (hpq x h)
      rw [List.filter_cons_of_neg hq, List.find?_cons_of_neg hx, find_part hpq r]

theorem Loc.thenRemove {τ : Nat → QName} {st : List Cell} (hi : Inv τ st) {h : Nat} (hh : P (τ h) = true)
    {f : List Cell → Except Err (List Cell)} (hf : ∀ a, Inv τ a → Loc P τ a (f a) (f (a.filter (at_ P)))) :
    Loc P τ st (f (removeCell h st)) (f (removeCell h (st.filter (at_ P)))) := by
  have := Loc.seq (Loc.remove hi hh) (f := f) (g := f) hf
  exact this

theorem moveCell_loc {ins : (Cell → Bool) → Cell → List Cell → Option (List Cell)} (hins : Inserts ins) {τ : Nat → QName}
    {st : List Cell} (hi : Inv τ st) {h : Nat} (hh : P (τ h) = true) {e : Elem} (he : e.tag = τ h) {p : Cell → Bool}
    (hp : ∀ x, p x = true → at_ P x = true) :
    Loc P τ st (moveCell ins p h e st) (moveCell ins p h e (st.filter (at_ P))) := by
  unfold moveCell
  rw [find_part hp]
  split
  · exact rfl
  · split
    · exact Loc.ok hi
    · exact Loc.thenRemove hi hh (f := fun a => orWrong (ins p (some h, e) a)) fun a ha =>
        Loc.orWrong hins ha (by simp [at_, he, hh]) (by rintro _ ⟨⟩; exact he) hp

theorem placeOld_loc {sn : SNode} {a : Except Err (Cell → Bool)} (ha : AnchorAt P a) {o : Elem} (ho : P o.tag = true)
    {τ : Nat → QName} {st : List Cell} (hi : Inv τ st) {h : Nat} (hh : P (τ h) = true) {e : Elem} (he : e.tag = τ h) :
    Loc P τ st (placeOld sn a o h e st) (placeOld sn a o h e (st.filter (at_ P))) := by
  have hτ : ∀ h', ((some h, e) : Cell).1 = some h' → ((some h, e) : Cell).2.tag = τ h' := by rintro _ ⟨⟩; exact he
  have hc : at_ P ((some h, e) : Cell) = true := by simp [at_, he, hh]
  unfold placeOld
  split
  · exact Loc.ok hi
  · split
    · rw [find_part (hasTag_at ho)]
      split
      · exact rfl
      · split
        · exact Loc.ok hi
        · exact Loc.thenRemove hi hh (f := fun a => .ok (putFirst o.tag (some h, e) a)) fun a ha' =>
            Loc.put inserts_before ha' hc hτ (hasTag_at ho)
    · split
      · rw [← List.filter_reverse, find_part (hasTag_at ho)]
        split
        · exact rfl
        · split
          · exact Loc.ok hi
          · exact Loc.thenRemove hi hh (f := fun a => .ok (putLast o.tag (some h, e) a)) fun a ha' =>
              Loc.put inserts_last ha' hc hτ (hasTag_at ho)
      · split
        · cases hp : a with
          | error e => exact rfl
          | ok p => exact moveCell_loc inserts_before hi hh he (ha p hp)
        · split
          · cases hp : a with
            | error e => exact rfl
            | ok p => exact moveCell_loc inserts_after hi hh he (ha p hp)
          · exact Loc.ok hi

/-- The same outcome for a child that exists. -/
def PLoc (P : QName → Bool) (τ : Nat → QName) (st : List Cell) : Except Err PeerResult → Except Err PeerResult → Prop
  | .error e, .error e' => e = e'
  | .ok a, .ok b => a.child = b.child ∧ a.attached = b.attached ∧ Loc P τ st (.ok a.st) (.ok b.st)
  | _, _ => False

theorem PLoc.of {τ : Nat → QName} {st : List Cell} {x y : Except Err (List Cell)} (h : Loc P τ st x y) (e : Elem) (b : Bool) :
    PLoc P τ st (x >>= fun st => pure ⟨st, e, b⟩) (y >>= fun st => pure ⟨st, e, b⟩) := by
  cases x <;> cases y <;> simp_all [Loc, PLoc, bind, Except.bind, pure, Except.pure]

theorem PLoc.bind {α : Type} {τ : Nat → QName} {st : List Cell} {x : Except Err α} {f g : α → Except Err PeerResult}
    (h : ∀ a, x = .ok a → PLoc P τ st (f a) (g a)) : PLoc P τ st (x >>= f) (x >>= g) := by
  cases x with
  | error e => exact rfl
  | ok a => exact h a rfl

theorem withPeerTree_loc {sn : SNode} {p : Elem × AddFn} (hp : KeepsTag p.2)
    {τ : Nat → QName} {st : List Cell} (hi : Inv τ st) {h : Nat} (hh : P (τ h) = true) {e : Elem} (he : e.tag = τ h)
    (ho : p.1.tag = τ h) :
    PLoc P τ st (withPeerTree sn p h e st) (withPeerTree sn p h e (st.filter (at_ P))) := by
  unfold withPeerTree
  simp only
  split
  · exact PLoc.bind fun e' he' => ⟨rfl, rfl, Loc.set hi hh ((hp _ _ _ he').trans he)⟩
  · split
    · exact ⟨rfl, rfl, Loc.replace hi hh (by rw [delAttrib_tag, ho])⟩
    · split
      · exact rfl
      · split
        · exact ⟨rfl, rfl, Loc.remove hi hh⟩
        · exact rfl

theorem withPeer_loc {d : Device} {sn : SNode} {p : Elem × AddFn} (hp : KeepsTag p.2)
    {τ : Nat → QName} {st : List Cell} (hi : Inv τ st) {h : Nat} (hh : P (τ h) = true) {e : Elem} (he : e.tag = τ h)
    (ho : p.1.tag = τ h) :
    PLoc P τ st (withPeer d sn p h e st) (withPeer d sn p h e (st.filter (at_ P))) := by
  have hoP : P p.1.tag = true := by rw [ho]; exact hh
  unfold withPeer
  split
  · unfold withPeerLeaf
    simp only
    split
    · refine PLoc.bind fun e' he' => ⟨rfl, rfl, Loc.set hi hh ?_⟩
      obtain ⟨t, rfl⟩ := mergeText_ok he'
      exact he
    · split
      · exact rfl
      · split
        · exact ⟨rfl, rfl, Loc.remove hi hh⟩
        · exact rfl
  · unfold withPeerLeafList
    simp only
    split
    · exact PLoc.of (placeOld_loc (valueAnchor_at hoP) hoP hi hh he) _ _
    · split
      · exact rfl
      · split
        · exact ⟨rfl, rfl, Loc.remove hi hh⟩
        · exact rfl
  · exact withPeerTree_loc hp hi hh he ho
  · unfold withPeerList
    simp only
    split
    · have h1 := placeOld_loc (P := P) (sn := sn) (keyAnchor_at hoP) hoP hi hh he
      cases hx : placeOld sn (keyAnchor p.1) p.1 h e st with
      | error x =>
        cases hy : placeOld sn (keyAnchor p.1) p.1 h e (st.filter (at_ P)) with
        | error y => rw [hx, hy] at h1; cases h1; exact rfl
        | ok y => rw [hx, hy] at h1; exact h1.elim
      | ok x =>
        cases hy : placeOld sn (keyAnchor p.1) p.1 h e (st.filter (at_ P)) with
        | error y => rw [hx, hy] at h1; exact h1.elim
        | ok y =>
          rw [hx, hy] at h1
          obtain ⟨rfl, h2, h3⟩ := h1
          have h4 := withPeerTree_loc (P := P) (sn := sn) hp h3 hh he ho
          show PLoc P τ st (withPeerTree sn p h e x) (withPeerTree sn p h e (x.filter (at_ P)))
          revert h4
          cases withPeerTree sn p h e x <;> cases withPeerTree sn p h e (x.filter (at_ P)) <;>
            simp only [PLoc, Loc] <;> try exact id
          rintro ⟨a, b, c, d, e⟩
          exact ⟨a, b, c, d.trans h2, e⟩
    · exact withPeerTree_loc hp hi hh he ho
  · exact ⟨rfl, rfl, Loc.ok hi⟩

theorem addWithPeer_loc {d : Device} {sc : Scope} {q : (Elem × Nat) × (Elem × AddFn)} (hp : KeepsTag q.2.2)
    {τ : Nat → QName} {st : List Cell} (hi : Inv τ st) (hh : P (τ q.1.2) = true) (he : q.1.1.tag = τ q.1.2)
    (ho : q.2.1.tag = τ q.1.2) :
    Loc P τ st (addWithPeer d sc st q) (addWithPeer d sc (st.filter (at_ P)) q) := by
  unfold addWithPeer
  refine Loc.bind fun f _ => ?_
  have h1 := withPeer_loc (P := P) (d := d) (sn := f.node) hp hi hh he ho
  cases hx : withPeer d f.node q.2 q.1.2 q.1.1 st with
  | error x =>
    cases hy : withPeer d f.node q.2 q.1.2 q.1.1 (st.filter (at_ P)) with
    | error y => rw [hx, hy] at h1; cases h1; exact rfl
    | ok y => rw [hx, hy] at h1; exact h1.elim
  | ok x =>
    cases hy : withPeer d f.node q.2 q.1.2 q.1.1 (st.filter (at_ P)) with
    | error y => rw [hx, hy] at h1; exact h1.elim
    | ok y =>
      rw [hx, hy] at h1
      obtain ⟨h2, h3, h4, h5, h6⟩ := h1
      show Loc P τ st (finishPeer f.node q.1.2 x) (finishPeer f.node q.1.2 y)
      unfold finishPeer
      rw [← h2, ← h3, ← h4]
      split
      · split
        · obtain ⟨a, b, c⟩ := removeCell_part (P := P) h6 hh
          exact ⟨a, b.trans h5, c⟩
        · exact rfl
      · exact ⟨rfl, h5, h6⟩

theorem Loc.fold {α : Type} {τ : Nat → QName} {f : List Cell → α → Except Err (List Cell)} : ∀ (l : List α) {st : List Cell},
    Inv τ st → (∀ x ∈ l, ∀ a, Inv τ a → Loc P τ a (f a x) (f (a.filter (at_ P)) x)) →
    Loc P τ st (l.foldlM f st) (l.foldlM f (st.filter (at_ P)))
  | [], _, hi, _ => Loc.ok hi
  | x :: r, st, hi, h => by
    rw [List.foldlM_cons, List.foldlM_cons]
    exact Loc.seq (h x (by simp) st hi) (g := fun a => r.foldlM f a) fun a ha =>
      Loc.fold r ha fun y hy => h y (by simp [hy])

end part

/-! ## Renaming handles -/

section rename
variable {ρ : Nat → Nat}

/-- Renaming the handle of a child. -/
def ren (ρ : Nat → Nat) (c : Cell) : Cell := (c.1.map ρ, c.2)

/-- A test that does not look at handles. -/
def Blind (p : Cell → Bool) : Prop := ∀ ρ c, p (ren ρ c) = p c

def Renames (ins : (Cell → Bool) → Cell → List Cell → Option (List Cell)) : Prop :=
  ∀ {p : Cell → Bool}, Blind p → ∀ (ρ : Nat → Nat) (c : Cell) (st : List Cell),
    ins p (ren ρ c) (st.map (ren ρ)) = (ins p c st).map (List.map (ren ρ))

theorem insertBefore_ren : Renames insertBefore := by
  intro p hp ρ c st
  induction st with
  | nil => rfl
  | cons x r ih =>
    rw [List.map_cons, insertBefore, insertBefore, hp]
    split
    · rfl
    · rw [ih, Option.map_map, Option.map_map]; rfl

theorem insertAfter_ren : Renames insertAfter := by
  intro p hp ρ c st
  induction st with
  | nil => rfl
  | cons x r ih =>
    rw [List.map_cons, insertAfter, insertAfter, hp]
    split
    · rfl
    · rw [ih, Option.map_map, Option.map_map]; rfl

theorem insertAfterLast_ren : Renames insertAfterLast := by
  intro p hp ρ c st
  induction st with
  | nil => rfl
  | cons x r ih =>
    rw [List.map_cons, insertAfterLast, insertAfterLast, ih, hp]
    cases insertAfterLast p c r with
    | some l => rfl
    | none =>
      simp only [Option.map_none]
      split <;> rfl

theorem hasTag_blind (t : QName) : Blind (hasTag t) := fun _ _ => rfl

theorem valueAnchor_blind {o : Elem} {p : Cell → Bool} (h : valueAnchor o = .ok p) : Blind p := by
  unfold valueAnchor at h
  split at h
  · cases h
  · cases h; exact fun _ _ => rfl

theorem keyAnchor_blind {o : Elem} {p : Cell → Bool} (h : keyAnchor o = .ok p) : Blind p := by
  unfold keyAnchor at h
  split at h
  · cases h
  · cases h
  · obtain ⟨qs, _, h⟩ := bind_ok.1 h
    cases h; exact fun _ _ => rfl

/-- Renaming in a result. -/
abbrev renR (ρ : Nat → Nat) (x : Except Err (List Cell)) : Except Err (List Cell) := x.map (List.map (ren ρ))

theorem renR_bind {α : Type} {ρ : Nat → Nat} {x : Except Err α} {f g : α → Except Err (List Cell)}
    (h : ∀ a, x = .ok a → f a = renR ρ (g a)) : (x >>= f) = renR ρ (x >>= g) := by
  cases x with
  | error e => rfl
  | ok a => exact h a rfl

theorem orWrong_ren {ins : (Cell → Bool) → Cell → List Cell → Option (List Cell)} (hins : Renames ins) {p : Cell → Bool}
    (hp : Blind p) (c : Cell) (st : List Cell) :
    orWrong (ins p (ren ρ c) (st.map (ren ρ))) = renR ρ (orWrong (ins p c st)) := by
  rw [hins hp]
  cases ins p c st <;> rfl

theorem put_ren {ins : (Cell → Bool) → Cell → List Cell → Option (List Cell)} (hins : Renames ins) {p : Cell → Bool}
    (hp : Blind p) (c : Cell) (st : List Cell) :
    (ins p (ren ρ c) (st.map (ren ρ))).getD (st.map (ren ρ) ++ [ren ρ c]) = ((ins p c st).getD (st ++ [c])).map (ren ρ) := by
  rw [hins hp]
  cases ins p c st <;> simp

theorem placeNew_ren {sn : SNode} {a : Except Err (Cell → Bool)} (ha : ∀ p, a = .ok p → Blind p) {o : Elem} (c : Cell)
    (st : List Cell) : placeNew sn a o (ren ρ c) (st.map (ren ρ)) = renR ρ (placeNew sn a o c st) := by
  unfold placeNew
  split
  · exact congrArg Except.ok (put_ren insertAfterLast_ren (hasTag_blind _) _ _)
  · split
    · exact congrArg Except.ok (put_ren insertBefore_ren (hasTag_blind _) _ _)
    · split
      · exact congrArg Except.ok (put_ren insertAfterLast_ren (hasTag_blind _) _ _)
      · split
        · exact renR_bind fun p hp => orWrong_ren insertBefore_ren (ha p hp) _ _
        · split
          · exact renR_bind fun p hp => orWrong_ren insertAfter_ren (ha p hp) _ _
          · rfl

theorem append_ren (e : Elem) (st : List Cell) :
    (pure (append (st.map (ren ρ)) (none, e)) : Except Err (List Cell)) = renR ρ (pure (append st (none, e))) := by
  show Except.ok _ = Except.ok _
  simp [append, ren]

theorem addWithoutPeer_ren {d : Device} {sc : Scope} (p : Elem × AddFn) (st : List Cell) :
    addWithoutPeer d sc (st.map (ren ρ)) p = renR ρ (addWithoutPeer d sc st p) := by
  obtain ⟨o, rec⟩ := p
  unfold addWithoutPeer
  simp only
  split
  · rfl
  · split
    · rfl
    · split
      · refine renR_bind fun f _ => ?_
        cases hn : f.node.ntype with
        | leaf => exact append_ren _ _
        | leafList => exact placeNew_ren (fun _ => valueAnchor_blind) (none, _) _
        | container =>
          simp only
          split
          · exact renR_bind fun e _ => append_ren _ _
          · exact append_ren _ _
        | list =>
          simp only
          split
          · refine renR_bind fun e _ => ?_
            rw [show ((none, e) : Cell) = ren ρ (none, e) from rfl, placeNew_ren fun _ => keyAnchor_blind]
            cases hx : placeNew f.node (keyAnchor o) o (none, e) st with
            | error x =>
              rw [show ren ρ (none, e) = ((none, e) : Cell) from rfl, hx]; rfl
            | ok x =>
              rw [show ren ρ (none, e) = ((none, e) : Cell) from rfl, hx]
              show (rec (.node f.node) e >>= fun e' => placeNew f.node (keyAnchor o) o (none, e') (st.map (ren ρ))) =
                renR ρ (rec (.node f.node) e >>= fun e' => placeNew f.node (keyAnchor o) o (none, e') st)
              exact renR_bind fun e' _ => placeNew_ren (fun _ => keyAnchor_blind) (none, _) _
          · exact placeNew_ren (fun _ => keyAnchor_blind) (none, _) _
        | _ => rfl
      · rfl

theorem isCell_ren (hρ : Function.Injective ρ) (h : Nat) (c : Cell) : isCell (ρ h) (ren ρ c) = isCell h c := by
  obtain ⟨i, e⟩ := c
  cases i with
  | none => simp [isCell, ren]
  | some i => simp [isCell, ren, hρ.eq_iff]

theorem removeCell_ren (hρ : Function.Injective ρ) (h : Nat) (st : List Cell) :
    removeCell (ρ h) (st.map (ren ρ)) = (removeCell h st).map (ren ρ) := by
  unfold removeCell
  rw [List.filter_map]
  congr 1
  exact List.filter_congr fun c _ => by simp only [Function.comp]; rw [isCell_ren hρ]

theorem setCell_ren (hρ : Function.Injective ρ) (h : Nat) (e : Elem) (st : List Cell) :
    setCell (ρ h) e (st.map (ren ρ)) = (setCell h e st).map (ren ρ) := by
  unfold setCell
  rw [List.map_map, List.map_map]
  apply List.map_congr_left
  intro c _
  simp only [Function.comp, isCell_ren hρ]
  split <;> rfl

theorem replaceCell_ren (hρ : Function.Injective ρ) (h : Nat) (e : Elem) (st : List Cell) :
    replaceCell (ρ h) e (st.map (ren ρ)) = (replaceCell h e st).map (ren ρ) := by
  unfold replaceCell
  rw [List.map_map, List.map_map]
  apply List.map_congr_left
  intro c _
  simp only [Function.comp, isCell_ren hρ]
  split <;> rfl

theorem find_ren {p : Cell → Bool} (hp : Blind p) (st : List Cell) :
    (st.map (ren ρ)).find? p = (st.find? p).map (ren ρ) := by
  rw [List.find?_map]
  congr 2
  funext c
  exact hp ρ c

theorem moveCell_ren (hρ : Function.Injective ρ) {ins : (Cell → Bool) → Cell → List Cell → Option (List Cell)}
    (hins : Renames ins) {p : Cell → Bool} (hp : Blind p) (h : Nat) (e : Elem) (st : List Cell) :
    moveCell ins p (ρ h) e (st.map (ren ρ)) = renR ρ (moveCell ins p h e st) := by
  unfold moveCell
  rw [find_ren hp]
  cases hx : st.find? p with
  | none => rfl
  | some c =>
    simp only [Option.map_some, isCell_ren hρ]
    split
    · rfl
    · rw [removeCell_ren hρ, show ((some (ρ h), e) : Cell) = ren ρ (some h, e) from rfl]
      exact orWrong_ren hins hp _ _

theorem placeOld_ren (hρ : Function.Injective ρ) {sn : SNode} {a : Except Err (Cell → Bool)}
    (ha : ∀ p, a = .ok p → Blind p) {o : Elem} (h : Nat) (e : Elem) (st : List Cell) :
    placeOld sn a o (ρ h) e (st.map (ren ρ)) = renR ρ (placeOld sn a o h e st) := by
  unfold placeOld
  split
  · rfl
  · split
    · rw [find_ren (hasTag_blind _)]
      cases hx : st.find? (hasTag o.tag) with
      | none => rfl
      | some c =>
        simp only [Option.map_some, isCell_ren hρ]
        split
        · rfl
        · rw [removeCell_ren hρ, show ((some (ρ h), e) : Cell) = ren ρ (some h, e) from rfl]
          exact congrArg Except.ok (put_ren insertBefore_ren (hasTag_blind _) _ _)
    · split
      · rw [← List.map_reverse, find_ren (hasTag_blind _)]
        cases hx : st.reverse.find? (hasTag o.tag) with
        | none => rfl
        | some c =>
          simp only [Option.map_some, isCell_ren hρ]
          split
          · rfl
          · rw [removeCell_ren hρ, show ((some (ρ h), e) : Cell) = ren ρ (some h, e) from rfl]
            exact congrArg Except.ok (put_ren insertAfterLast_ren (hasTag_blind _) _ _)
      · split
        · exact renR_bind fun p hp => moveCell_ren hρ insertBefore_ren (ha p hp) _ _ _
        · split
          · exact renR_bind fun p hp => moveCell_ren hρ insertAfter_ren (ha p hp) _ _ _
          · rfl

/-- Renaming in a result about a child that exists. -/
def renP (ρ : Nat → Nat) (x : Except Err PeerResult) : Except Err PeerResult :=
  x.map fun r => ⟨r.st.map (ren ρ), r.child, r.attached⟩

theorem renP_bind {α : Type} {ρ : Nat → Nat} {x : Except Err α} {f g : α → Except Err PeerResult}
    (h : ∀ a, x = .ok a → f a = renP ρ (g a)) : (x >>= f) = renP ρ (x >>= g) := by
  cases x with
  | error e => rfl
  | ok a => exact h a rfl

theorem renP_seq {ρ : Nat → Nat} {x y : Except Err (List Cell)} (hx : x = renR ρ y) {f g : List Cell → Except Err PeerResult}
    (h : ∀ a, f (a.map (ren ρ)) = renP ρ (g a)) : (x >>= f) = renP ρ (y >>= g) := by
  subst hx
  cases y with
  | error e => rfl
  | ok a => exact h a

theorem withPeerTree_ren (hρ : Function.Injective ρ) {sn : SNode} (p : Elem × AddFn) (h : Nat) (e : Elem) (st : List Cell) :
    withPeerTree sn p (ρ h) e (st.map (ren ρ)) = renP ρ (withPeerTree sn p h e st) := by
  unfold withPeerTree
  simp only [setCell_ren hρ, replaceCell_ren hρ, removeCell_ren hρ]
  split
  · exact renP_bind fun e' _ => rfl
  · split
    · rfl
    · split
      · rfl
      · split <;> rfl

theorem withPeer_ren (hρ : Function.Injective ρ) {d : Device} {sn : SNode} (p : Elem × AddFn) (h : Nat) (e : Elem)
    (st : List Cell) : withPeer d sn p (ρ h) e (st.map (ren ρ)) = renP ρ (withPeer d sn p h e st) := by
  unfold withPeer
  split
  · unfold withPeerLeaf
    simp only [setCell_ren hρ, removeCell_ren hρ]
    split
    · exact renP_bind fun e' _ => rfl
    · split
      · rfl
      · split <;> rfl
  · unfold withPeerLeafList
    simp only [removeCell_ren hρ]
    split
    · exact renP_seq (placeOld_ren hρ (fun _ => valueAnchor_blind) _ _ _) fun a => rfl
    · split
      · rfl
      · split <;> rfl
  · exact withPeerTree_ren hρ _ _ _ _
  · unfold withPeerList
    simp only
    split
    · exact renP_seq (placeOld_ren hρ (fun _ => keyAnchor_blind) _ _ _) fun a => withPeerTree_ren hρ _ _ _ _
    · exact withPeerTree_ren hρ _ _ _ _
  · rfl

theorem addWithPeer_ren (hρ : Function.Injective ρ) {d : Device} {sc : Scope} (e : Elem) (h : Nat) (p : Elem × AddFn)
    (st : List Cell) :
    addWithPeer d sc (st.map (ren ρ)) ((e, ρ h), p) = renR ρ (addWithPeer d sc st ((e, h), p)) := by
  unfold addWithPeer
  refine renR_bind fun f _ => ?_
  simp only [withPeer_ren hρ]
  cases withPeer d f.node p h e st with
  | error x => rfl
  | ok r =>
    show finishPeer f.node (ρ h) ⟨r.st.map (ren ρ), r.child, r.attached⟩ = renR ρ (finishPeer f.node h r)
    unfold finishPeer
    simp only [removeCell_ren hρ]
    split
    · split <;> rfl
    · rfl

theorem fold_ren {α β : Type} {φ : α → β} {f : List Cell → β → Except Err (List Cell)} {g : List Cell → α → Except Err (List Cell)}
    (h : ∀ a x, f (a.map (ren ρ)) (φ x) = renR ρ (g a x)) : ∀ (l : List α) (st : List Cell),
    (l.map φ).foldlM f (st.map (ren ρ)) = renR ρ (l.foldlM g st)
  | [], _ => rfl
  | x :: r, st => by
    rw [List.map_cons, List.foldlM_cons, List.foldlM_cons, h]
    cases g st x with
    | error e => rfl
    | ok a => exact fold_ren h r a

end rename

/-! ## `node_add` -/

/-- `node_add` on children with arbitrary handles. -/
def run (d : Device) (sc : Scope) (as : List (Elem × Nat)) (bs : List (Elem × AddFn)) : Except Err (List Cell) := do
  let g := groupsOf (fun a : Elem × Nat => uid d sc a.1) (fun b : Elem × AddFn => uid d sc b.1) as bs
  let st ← g.onlyTwo.foldlM (addWithoutPeer d sc) (as.map (fun p => (some p.2, p.1)))
  g.both.foldlM (addWithPeer d sc) st

theorem run_ren {ρ : Nat → Nat} (hρ : Function.Injective ρ) {d : Device} {sc : Scope} (as : List (Elem × Nat))
    (bs : List (Elem × AddFn)) :
    run d sc (as.map (fun a => (a.1, ρ a.2))) bs = renR ρ (run d sc as bs) := by
  unfold run
  have hg : groupsOf (fun a : Elem × Nat => uid d sc a.1) (fun b : Elem × AddFn => uid d sc b.1)
      (as.map (fun a => (a.1, ρ a.2))) bs =
      let g := groupsOf (fun a : Elem × Nat => uid d sc a.1) (fun b : Elem × AddFn => uid d sc b.1) as bs
      ⟨g.onlyOne.map (fun a => (a.1, ρ a.2)), g.onlyTwo, g.both.map (fun q => ((q.1.1, ρ q.1.2), q.2))⟩ := by
    simp only [groupsOf, List.filter_map, List.filterMap_map, List.map_filterMap, List.find?_map, Function.comp_def,
      Option.isNone_map, Option.map_map]
  rw [hg]
  simp only
  have h0 : (as.map (fun a => (a.1, ρ a.2))).map (fun p : Elem × Nat => ((some p.2, p.1) : Cell)) =
      (as.map (fun p => ((some p.2, p.1) : Cell))).map (ren ρ) := by
    simp [List.map_map, Function.comp_def, ren]
  rw [h0]
  have h1 := fold_ren (ρ := ρ) (φ := id) (f := addWithoutPeer d sc) (g := addWithoutPeer d sc)
    (fun a x => addWithoutPeer_ren x a)
    (groupsOf (fun a : Elem × Nat => uid d sc a.1) (fun b : Elem × AddFn => uid d sc b.1) as bs).onlyTwo
    (as.map (fun p => (some p.2, p.1)))
  rw [List.map_id] at h1
  rw [h1]
  cases (groupsOf (fun a : Elem × Nat => uid d sc a.1) (fun b : Elem × AddFn => uid d sc b.1) as bs).onlyTwo.foldlM
    (addWithoutPeer d sc) (as.map (fun p => (some p.2, p.1))) with
  | error e => rfl
  | ok st =>
    exact fold_ren (ρ := ρ) (φ := fun q : (Elem × Nat) × (Elem × AddFn) => ((q.1.1, ρ q.1.2), q.2))
      (fun a x => addWithPeer_ren hρ x.1.1 x.1.2 x.2 a) _ _

/-- A child of this list stands for a name among these. -/
theorem run_part {P : QName → Bool} {d : Device} {sc : Scope} {τ : Nat → QName} {as : List (Elem × Nat)}
    {bs : List (Elem × AddFn)} (ha : ∀ a ∈ as, a.1.tag = τ a.2) (hb : ∀ b ∈ bs, P b.1.tag = true ∧ KeepsTag b.2) :
    Loc P τ (as.map (fun p => (some p.2, p.1))) (run d sc as bs) (run d sc (as.filter (fun a => P a.1.tag)) bs) := by
  unfold run
  have hbf : ∀ (a : Elem) , (bs.find? (fun b => uid d sc b.1 = uid d sc a)).isSome → P a.tag = true := by
    intro a h
    obtain ⟨b, hb'⟩ := Option.isSome_iff_exists.1 h
    have h1 := List.find?_some hb'
    simp only [decide_eq_true_eq] at h1
    rw [← uid_tag d sc a, ← h1, uid_tag]
    exact (hb b (List.mem_of_find?_eq_some hb')).1
  have hone : ∀ b ∈ bs, (as.filter (fun a => P a.1.tag)).find? (fun a => uid d sc a.1 = uid d sc b.1) =
      as.find? (fun a => uid d sc a.1 = uid d sc b.1) := by
    intro b hb'
    clear ha
    induction as with
    | nil => rfl
    | cons x r ih =>
      by_cases hx : P x.1.tag = true
      · rw [List.filter_cons_of_pos (p := fun a : Elem × Nat => P a.1.tag) hx, List.find?_cons, List.find?_cons, ih]
      · rw [List.filter_cons_of_neg (p := fun a : Elem × Nat => P a.1.tag) hx, ih, List.find?_cons_of_neg]
        intro h
        simp only [decide_eq_true_eq] at h
        apply hx
        rw [← uid_tag d sc, h, uid_tag]
        exact (hb b hb').1
  have hboth : (as.filter (fun a => P a.1.tag)).filterMap
        (fun a => (bs.find? (fun b => uid d sc b.1 = uid d sc a.1)).map (fun b => (a, b))) =
      as.filterMap (fun a => (bs.find? (fun b => uid d sc b.1 = uid d sc a.1)).map (fun b => (a, b))) := by
    clear ha hone
    induction as with
    | nil => rfl
    | cons x r ih =>
      by_cases hx : P x.1.tag = true
      · rw [List.filter_cons_of_pos (p := fun a : Elem × Nat => P a.1.tag) hx, List.filterMap_cons, List.filterMap_cons, ih]
      · rw [List.filter_cons_of_neg (p := fun a : Elem × Nat => P a.1.tag) hx, ih, List.filterMap_cons]
        cases h : bs.find? (fun b => uid d sc b.1 = uid d sc x.1) with
        | none => rfl
        | some b => exact absurd (hbf x.1 (by rw [h]; rfl)) hx
  have hg : groupsOf (fun a : Elem × Nat => uid d sc a.1) (fun b : Elem × AddFn => uid d sc b.1)
      (as.filter (fun a => P a.1.tag)) bs =
      ⟨(groupsOf (fun a : Elem × Nat => uid d sc a.1) (fun b : Elem × AddFn => uid d sc b.1)
        (as.filter (fun a => P a.1.tag)) bs).onlyOne,
        (groupsOf (fun a : Elem × Nat => uid d sc a.1) (fun b : Elem × AddFn => uid d sc b.1) as bs).onlyTwo,
        (groupsOf (fun a : Elem × Nat => uid d sc a.1) (fun b : Elem × AddFn => uid d sc b.1) as bs).both⟩ := by
    unfold groupsOf
    simp only [Groups.mk.injEq, true_and]
    exact ⟨List.filter_congr fun b hb' => by rw [hone b hb'], hboth⟩
  rw [hg]
  simp only
  have hst : (as.filter (fun a => P a.1.tag)).map (fun p : Elem × Nat => ((some p.2, p.1) : Cell)) =
      (as.map (fun p => ((some p.2, p.1) : Cell))).filter (at_ P) := by
    rw [List.filter_map]; rfl
  rw [hst]
  refine Loc.seq (g := fun a => (groupsOf (fun a : Elem × Nat => uid d sc a.1) (fun b : Elem × AddFn => uid d sc b.1)
      as bs).both.foldlM (addWithPeer d sc) a) (Loc.fold _ ?_ ?_) ?_
  · intro c hc h hh
    obtain ⟨a, ha', rfl⟩ := List.mem_map.1 hc
    cases hh
    exact ha a ha'
  · intro b hb' a hi
    have := List.mem_filter.1 hb'
    exact addWithoutPeer_loc (hb b this.1).2 (hb b this.1).1 hi
  · intro a hi
    refine Loc.fold _ hi ?_
    intro q hq a hi
    obtain ⟨x, hx, hx'⟩ := List.mem_filterMap.1 hq
    obtain ⟨b, hb', rfl⟩ := Option.map_eq_some_iff.1 hx'
    have hbm := List.mem_of_find?_eq_some hb'
    have ht : x.1.tag = b.1.tag := by
      have := List.find?_some hb'
      simp only [decide_eq_true_eq] at this
      rw [← uid_tag d sc, ← this, uid_tag]
    refine addWithPeer_loc (hb b hbm).2 hi ?_ (ha x hx) ?_
    · simp only
      rw [← ha x hx, ht]
      exact (hb b hbm).1
    · simp only
      rw [← ha x hx, ht]

/-! ## Parts of a delta -/

section split
variable {τ : Nat → QName} {α : Type} {f : List Cell → α → Except Err (List Cell)} {tagOf : α → QName}

/-- A step is about nodes of one name. -/
def About (τ : Nat → QName) (f : List Cell → α → Except Err (List Cell)) (tagOf : α → QName) (x : α) : Prop :=
  ∀ (P : QName → Bool) (a : List Cell), P (tagOf x) = true → Inv τ a → Loc P τ a (f a x) (f (a.filter (at_ P)) x)

theorem About.same {x : α} (h : About τ f tagOf x) {P : QName → Bool} (hP : P (tagOf x) = true) {st a : List Cell} (hi : Inv τ st)
    (ha : f st x = .ok a) : f (st.filter (at_ P)) x = .ok (a.filter (at_ P)) ∧ Inv τ a := by
  have := h P st hP hi
  rw [ha] at this
  cases hb : f (st.filter (at_ P)) x with
  | error e => rw [hb] at this; exact this.elim
  | ok b => rw [hb] at this; exact ⟨congrArg Except.ok this.1.symm, this.2.2⟩

theorem About.other {x : α} (h : About τ f tagOf x) {P : QName → Bool} (hP : ¬ P (tagOf x) = true) {st a : List Cell}
    (hi : Inv τ st) (ha : f st x = .ok a) : a.filter (at_ P) = st.filter (at_ P) := by
  have := h (fun t => !P t) st (by simpa using hP) hi
  rw [ha] at this
  cases hb : f (st.filter (at_ fun t => !P t)) x with
  | error e => rw [hb] at this; exact this.elim
  | ok b =>
    rw [hb] at this
    have h2 := this.2.1
    have e : ∀ l : List Cell, l.filter (fun c => !at_ (fun t => !P t) c) = l.filter (at_ P) := by
      intro l; congr 1; funext c; simp [at_]
    rw [e, e] at h2
    exact h2

theorem fold_split : ∀ (l : List α) {st a : List Cell}, (∀ x ∈ l, About τ f tagOf x) → Inv τ st → l.foldlM f st = .ok a →
    Inv τ a ∧ ∀ P : QName → Bool,
      (l.filter (fun x => P (tagOf x))).foldlM f (st.filter (at_ P)) = .ok (a.filter (at_ P))
  | [], st, a, _, hi, h => by cases h; exact ⟨hi, fun P => rfl⟩
  | x :: r, st, a, hf, hi, h => by
    rw [List.foldlM_cons] at h
    obtain ⟨b, hb, hr⟩ := bind_ok.1 h
    have hx := hf x (by simp)
    have hib : Inv τ b := (hx.same (P := fun _ => true) rfl hi hb).2
    obtain ⟨h1, h2⟩ := fold_split r (fun y hy => hf y (by simp [hy])) hib hr
    refine ⟨h1, fun P => ?_⟩
    by_cases hP : P (tagOf x) = true
    · rw [List.filter_cons_of_pos (p := fun x => P (tagOf x)) hP, List.foldlM_cons, (hx.same hP hi hb).1]
      exact h2 P
    · rw [List.filter_cons_of_neg (p := fun x => P (tagOf x)) hP, ← hx.other hP hi hb]
      exact h2 P

theorem fold_join : ∀ (l : List α) {st : List Cell}, (∀ x ∈ l, About τ f tagOf x) → Inv τ st →
    (∀ t : QName, ∃ b, (l.filter (fun x => decide (tagOf x = t))).foldlM f (st.filter (at_ fun s => decide (s = t))) = .ok b) →
    ∃ a, l.foldlM f st = .ok a
  | [], st, _, _, _ => ⟨st, rfl⟩
  | x :: r, st, hf, hi, h => by
    have hx := hf x (by simp)
    obtain ⟨b, hb⟩ := h (tagOf x)
    rw [List.filter_cons_of_pos (by simp), List.foldlM_cons] at hb
    obtain ⟨b', hb', _⟩ := bind_ok.1 hb
    have hl := hx (fun s => decide (s = tagOf x)) st (by simp) hi
    rw [hb'] at hl
    cases ha : f st x with
    | error e => rw [ha] at hl; exact hl.elim
    | ok a1 =>
      have hia : Inv τ a1 := (hx.same (P := fun _ => true) rfl hi ha).2
      obtain ⟨a, hfin⟩ := fold_join r (fun y hy => hf y (by simp [hy])) hia (by
        intro t
        obtain ⟨b, hb⟩ := h t
        by_cases ht : tagOf x = t
        · rw [List.filter_cons_of_pos (by simp [ht]), List.foldlM_cons,
            (hx.same (P := fun s => decide (s = t)) (by simp [ht]) hi ha).1] at hb
          exact ⟨b, hb⟩
        · rw [List.filter_cons_of_neg (by simp [ht]), ← hx.other (P := fun s => decide (s = t)) (by simp [ht]) hi ha] at hb
          exact ⟨b, hb⟩)
      refine ⟨a, ?_⟩
      rw [List.foldlM_cons, ha]
      exact hfin

end split

theorem groups_part (P : QName → Bool) (d : Device) (sc : Scope) (as : List (Elem × Nat)) (bs : List (Elem × AddFn)) :
    (groupsOf (fun a : Elem × Nat => uid d sc a.1) (fun b : Elem × AddFn => uid d sc b.1)
      (as.filter (fun a => P a.1.tag)) (bs.filter (fun b => P b.1.tag))).onlyTwo =
      (groupsOf (fun a : Elem × Nat => uid d sc a.1) (fun b : Elem × AddFn => uid d sc b.1) as bs).onlyTwo.filter
        (fun b => P b.1.tag) ∧
    (groupsOf (fun a : Elem × Nat => uid d sc a.1) (fun b : Elem × AddFn => uid d sc b.1)
      (as.filter (fun a => P a.1.tag)) (bs.filter (fun b => P b.1.tag))).both =
      (groupsOf (fun a : Elem × Nat => uid d sc a.1) (fun b : Elem × AddFn => uid d sc b.1) as bs).both.filter
        (fun q => P q.1.1.tag) := by
  have hfa : ∀ b : Elem × AddFn, P b.1.tag = true → (as.filter (fun a => P a.1.tag)).find? (fun a => uid d sc a.1 = uid d sc b.1) =
      as.find? (fun a => uid d sc a.1 = uid d sc b.1) := by
    intro b hb
    induction as with
    | nil => rfl
    | cons x r ih =>
      by_cases hx : P x.1.tag = true
      · rw [List.filter_cons_of_pos (p := fun a : Elem × Nat => P a.1.tag) hx, List.find?_cons, List.find?_cons, ih]
      · rw [List.filter_cons_of_neg (p := fun a : Elem × Nat => P a.1.tag) hx, ih, List.find?_cons_of_neg]
        intro h
        simp only [decide_eq_true_eq] at h
        apply hx
        rw [← uid_tag d sc, h, uid_tag]
        exact hb
  have hfb : ∀ a : Elem × Nat, P a.1.tag = true → (bs.filter (fun b => P b.1.tag)).find? (fun b => uid d sc b.1 = uid d sc a.1) =
      bs.find? (fun b => uid d sc b.1 = uid d sc a.1) := by
    intro a ha
    clear hfa
    induction bs with
    | nil => rfl
    | cons x r ih =>
      by_cases hx : P x.1.tag = true
      · rw [List.filter_cons_of_pos (p := fun a : Elem × AddFn => P a.1.tag) hx, List.find?_cons, List.find?_cons, ih]
      · rw [List.filter_cons_of_neg (p := fun a : Elem × AddFn => P a.1.tag) hx, ih, List.find?_cons_of_neg]
        intro h
        simp only [decide_eq_true_eq] at h
        apply hx
        rw [← uid_tag d sc, h, uid_tag]
        exact ha
  unfold groupsOf
  constructor
  · simp only
    rw [List.filter_filter, List.filter_filter]
    apply List.filter_congr
    intro b _
    by_cases hb : P b.1.tag = true
    · rw [hfa b hb, Bool.and_comm]
    · simp [hb]
  · simp only
    clear hfa
    induction as with
    | nil => rfl
    | cons x r ih =>
      by_cases hx : P x.1.tag = true
      · rw [List.filter_cons_of_pos (p := fun a : Elem × Nat => P a.1.tag) hx, List.filterMap_cons, List.filterMap_cons, hfb x hx]
        cases hfd : bs.find? (fun b => uid d sc b.1 = uid d sc x.1) with
        | none => simpa using ih
        | some b =>
          simp only [Option.map_some]
          rw [List.filter_cons_of_pos (p := fun q : (Elem × Nat) × (Elem × AddFn) => P q.1.1.tag) hx, ih]
      · rw [List.filter_cons_of_neg (p := fun a : Elem × Nat => P a.1.tag) hx, List.filterMap_cons, ih]
        cases hfd : bs.find? (fun b => uid d sc b.1 = uid d sc x.1) with
        | none => rfl
        | some b => simp [hx]

section runs
variable {d : Device} {sc : Scope} {τ : Nat → QName} {as : List (Elem × Nat)} {bs : List (Elem × AddFn)}

theorem start_inv (ha : ∀ a ∈ as, a.1.tag = τ a.2) : Inv τ (as.map (fun p => (some p.2, p.1))) := by
  intro c hc h hh
  obtain ⟨a, ha', rfl⟩ := List.mem_map.1 hc
  cases hh
  exact ha a ha'

theorem two_about (hb : ∀ b ∈ bs, KeepsTag b.2) (as : List (Elem × Nat)) :
    ∀ b ∈ (groupsOf (fun a : Elem × Nat => uid d sc a.1) (fun b : Elem × AddFn => uid d sc b.1) as bs).onlyTwo,
      About τ (addWithoutPeer d sc) (fun b : Elem × AddFn => b.1.tag) b := by
  intro b hb' P a hP hi
  exact addWithoutPeer_loc (hb b (List.mem_filter.1 hb').1) hP hi

theorem both_about (ha : ∀ a ∈ as, a.1.tag = τ a.2) (hb : ∀ b ∈ bs, KeepsTag b.2) :
    ∀ q ∈ (groupsOf (fun a : Elem × Nat => uid d sc a.1) (fun b : Elem × AddFn => uid d sc b.1) as bs).both,
      About τ (addWithPeer d sc) (fun q : (Elem × Nat) × (Elem × AddFn) => q.1.1.tag) q := by
  intro q hq P a hP hi
  obtain ⟨x, hx, hx'⟩ := List.mem_filterMap.1 hq
  obtain ⟨b, hb', rfl⟩ := Option.map_eq_some_iff.1 hx'
  have hbm := List.mem_of_find?_eq_some hb'
  have ht : x.1.tag = b.1.tag := by
    have := List.find?_some hb'
    simp only [decide_eq_true_eq] at this
    rw [← uid_tag d sc, ← this, uid_tag]
  refine addWithPeer_loc (hb b hbm) hi ?_ (ha x hx) ?_
  · simp only at hP ⊢
    rw [← ha x hx]; exact hP
  · simp only
    rw [← ha x hx, ht]

theorem start_part (P : QName → Bool) : (as.filter (fun a => P a.1.tag)).map (fun p : Elem × Nat => ((some p.2, p.1) : Cell)) =
    (as.map (fun p => ((some p.2, p.1) : Cell))).filter (at_ P) := by
  rw [List.filter_map]; rfl

theorem run_split (ha : ∀ a ∈ as, a.1.tag = τ a.2) (hb : ∀ b ∈ bs, KeepsTag b.2) {r : List Cell} (h : run d sc as bs = .ok r)
    (P : QName → Bool) :
    run d sc (as.filter (fun a => P a.1.tag)) (bs.filter (fun b => P b.1.tag)) = .ok (r.filter (at_ P)) := by
  unfold run at h ⊢
  obtain ⟨h1, h2⟩ := groups_part P d sc as bs
  obtain ⟨st1, h3, h4⟩ := bind_ok.1 h
  obtain ⟨hi1, h5⟩ := fold_split (τ := τ) _ (two_about hb as) (start_inv ha) h3
  obtain ⟨hi2, h6⟩ := fold_split (τ := τ) _ (both_about ha hb) hi1 h4
  simp only [h1, h2, start_part]
  rw [h5 P]
  exact h6 P

theorem run_join (ha : ∀ a ∈ as, a.1.tag = τ a.2) (hb : ∀ b ∈ bs, KeepsTag b.2)
    (h : ∀ t : QName, ∃ r, run d sc (as.filter (fun a => decide (a.1.tag = t))) (bs.filter (fun b => decide (b.1.tag = t))) = .ok r) :
    ∃ r, run d sc as bs = .ok r := by
  unfold run at h ⊢
  simp only [bind_ok] at h ⊢
  obtain ⟨st1, h1⟩ := fold_join (τ := τ) _ (two_about (d := d) (sc := sc) hb as) (start_inv ha) (by
    intro t
    obtain ⟨r, st, h2, h3⟩ := h t
    obtain ⟨g1, g2⟩ := groups_part (fun s => decide (s = t)) d sc as bs
    refine ⟨st, ?_⟩
    rw [← g1, ← start_part]
    exact h2)
  obtain ⟨hi1, h5⟩ := fold_split (τ := τ) _ (two_about (d := d) (sc := sc) hb as) (start_inv ha) h1
  obtain ⟨st2, h6⟩ := fold_join (τ := τ) _ (both_about (d := d) (sc := sc) ha hb) hi1 (by
    intro t
    obtain ⟨r, st, h2, h3⟩ := h t
    obtain ⟨g1, g2⟩ := groups_part (fun s => decide (s = t)) d sc as bs
    have h7 := h5 (fun s => decide (s = t))
    rw [← g1, ← start_part] at h7
    have h8 : (Except.ok st : Except Err (List Cell)) = .ok (st1.filter (at_ fun s => decide (s = t))) := h2.symm.trans h7
    cases h8
    refine ⟨r, ?_⟩
    rw [← g2]
    exact h3)
  exact ⟨st2, st1, h1, h6⟩

end runs

/-- Positions of a part of the children. -/
theorem zipIdx_part (q : Elem → Bool) (ks : List Elem) : ∃ ρ : Nat → Nat, Function.Injective ρ ∧
    ks.zipIdx.filter (fun a => q a.1) = (ks.filter q).zipIdx.map (fun a => (a.1, ρ a.2)) := by
  let l := ks.zipIdx.filter (fun a => q a.1)
  have hl1 : l.map Prod.fst = ks.filter q := by
    have := List.filter_map (f := (Prod.fst : Elem × Nat → Elem)) (l := ks.zipIdx) (p := q)
    rw [List.zipIdx_map_fst] at this
    rw [this]; rfl
  have hlt : ∀ a ∈ l, a.2 < ks.length := by
    intro a ha
    have := List.mem_zipIdx_iff_getElem?.1 (List.mem_of_mem_filter ha)
    exact (List.getElem?_eq_some_iff.1 this).1
  have hnd : (l.map Prod.snd).Nodup := by
    have h0 : (ks.zipIdx.map Prod.snd).Nodup := by
      rw [List.zipIdx_map_snd]; exact List.nodup_range'
    exact h0.sublist (List.filter_sublist.map _)
  let ρ : Nat → Nat := fun i => match l[i]? with
    | some a => a.2
    | none => ks.length + i
  refine ⟨ρ, ?_, ?_⟩
  · intro i j hij
    simp only [ρ] at hij
    cases hi : l[i]? with
    | none =>
      cases hj : l[j]? with
      | none => rw [hi, hj] at hij; simp only at hij; omega
      | some b =>
        rw [hi, hj] at hij; simp only at hij
        have := hlt b (List.mem_of_getElem? hj); omega
    | some a =>
      cases hj : l[j]? with
      | none =>
        rw [hi, hj] at hij; simp only at hij
        have := hlt a (List.mem_of_getElem? hi); omega
      | some b =>
        rw [hi, hj] at hij; simp only at hij
        have h1 : (l.map Prod.snd)[i]? = some a.2 := by simp [hi]
        have h2 : (l.map Prod.snd)[j]? = some b.2 := by simp [hj]
        have hil : i < (l.map Prod.snd).length := (List.getElem?_eq_some_iff.1 h1).1
        exact (List.getElem?_inj hil hnd).1 (by rw [h1, h2, hij])
  · show l = _
    rw [← hl1]
    apply List.ext_getElem?
    intro i
    simp only [List.getElem?_map, List.getElem?_zipIdx]
    cases hi : l[i]? with
    | none => rfl
    | some a => simp [ρ, hi]

/-! ## `node_add` and parts -/

/-- The children of these names only. -/
def only (P : QName → Bool) (e : Elem) : Elem := e.setKids (e.kids.filter (fun k => P k.tag))

theorem setKids_twice (e : Elem) (a b : List Elem) : (e.setKids a).setKids b = e.setKids b := by cases e; rfl

theorem only_kids (P : QName → Bool) (e : Elem) : (only P e).kids = e.kids.filter (fun k => P k.tag) := by
  simp [only]

theorem indexable_only {d : Device} {sc : Scope} {ks : List Elem} (h : Indexable d sc ks) (q : Elem → Bool) :
    Indexable d sc (ks.filter q) :=
  ⟨fun k hk => h.ok k (List.mem_of_mem_filter hk), h.nodup.sublist (List.filter_sublist.map _)⟩

/-- The table of the children of a delta. -/
def table (d : Device) (ks : List Elem) : List (Elem × AddFn) := ks.map (fun k => (k, fun sc sum => nodeAdd d k sc sum))

theorem table_keeps (d : Device) (ks : List Elem) : ∀ b ∈ table d ks, KeepsTag b.2 := by
  intro b hb
  obtain ⟨k, _, rfl⟩ := List.mem_map.1 hb
  intro sc e e' h
  exact (nodeAdd_tag h).1

theorem table_filter (d : Device) (ks : List Elem) (P : QName → Bool) :
    (table d ks).filter (fun b => P b.1.tag) = table d (ks.filter (fun k => P k.tag)) := by
  unfold table
  rw [List.filter_map]; rfl

theorem nodeAdd_eq_run {d : Device} {sc : Scope} {s o : Elem} (i1 : Indexable d sc s.kids) (i2 : Indexable d sc o.kids) :
    nodeAdd d o sc s = (run d sc s.kids.zipIdx (table d o.kids)).map (fun st => s.setKids (st.map Prod.snd)) := by
  rw [nodeAdd_run i1 i2]
  unfold run table
  simp only
  cases h1 : (groupsOf (fun a : Elem × Nat => uid d sc a.1) (fun b : Elem × AddFn => uid d sc b.1)
    s.kids.zipIdx (o.kids.map (fun k => (k, fun sc sum => nodeAdd d k sc sum)))).onlyTwo.foldlM
    (addWithoutPeer d sc) (s.kids.zipIdx.map (fun p => (some p.2, p.1))) with
  | error e => rfl
  | ok st =>
    simp only [bind, Except.bind]
    cases (groupsOf (fun a : Elem × Nat => uid d sc a.1) (fun b : Elem × AddFn => uid d sc b.1)
      s.kids.zipIdx (o.kids.map (fun k => (k, fun sc sum => nodeAdd d k sc sum)))).both.foldlM
      (addWithPeer d sc) st <;> rfl

theorem zipIdx_tags (ks : List Elem) : ∃ τ : Nat → QName, ∀ a ∈ ks.zipIdx, a.1.tag = τ a.2 := by
  refine ⟨fun i => match ks[i]? with | some k => k.tag | none => ⟨"", ""⟩, ?_⟩
  intro a ha
  have := List.mem_zipIdx_iff_getElem?.1 ha
  simp [this]

/-- The run on the part of the children, with the handles that they have there. -/
theorem run_only (d : Device) (sc : Scope) (P : QName → Bool) (ks : List Elem) (bs : List (Elem × AddFn)) :
    ∃ ρ : Nat → Nat, run d sc (ks.zipIdx.filter (fun a => P a.1.tag)) bs =
      renR ρ (run d sc (ks.filter (fun k => P k.tag)).zipIdx bs) := by
  obtain ⟨ρ, hρ, h⟩ := zipIdx_part (fun k => P k.tag) ks
  exact ⟨ρ, by rw [h, run_ren hρ]⟩

theorem ren_snd (ρ : Nat → Nat) (st : List Cell) : (st.map (ren ρ)).map Prod.snd = st.map Prod.snd := by
  rw [List.map_map]; rfl

theorem part_snd (P : QName → Bool) (st : List Cell) :
    (st.filter (at_ P)).map Prod.snd = (st.map Prod.snd).filter (fun k => P k.tag) := by
  rw [List.filter_map]; rfl

/-- A sum splits into the sums of parts. -/
theorem nodeAdd_split {d : Device} {sc : Scope} {s o r : Elem} (h : nodeAdd d o sc s = .ok r) (P : QName → Bool) :
    nodeAdd d (only P o) sc (only P s) = .ok (only P r) := by
  obtain ⟨i1, i2, _⟩ := nodeAdd_inv h
  rw [nodeAdd_eq_run i1 i2] at h
  rw [nodeAdd_eq_run (by rw [only_kids]; exact indexable_only i1 _) (by rw [only_kids]; exact indexable_only i2 _)]
  cases hr : run d sc s.kids.zipIdx (table d o.kids) with
  | error e => rw [hr] at h; cases h
  | ok st =>
    rw [hr] at h
    cases h
    obtain ⟨τ, hτ⟩ := zipIdx_tags s.kids
    have h1 := run_split hτ (table_keeps d _) hr P
    rw [table_filter] at h1
    obtain ⟨ρ, h2⟩ := run_only d sc P s.kids (table d (o.kids.filter (fun k => P k.tag)))
    rw [h2] at h1
    rw [only_kids, only_kids]
    cases h3 : run d sc (s.kids.filter (fun k => P k.tag)).zipIdx (table d (o.kids.filter (fun k => P k.tag))) with
    | error e => rw [h3] at h1; cases h1
    | ok st' =>
      rw [h3] at h1
      have h4 : st'.map (ren ρ) = st.filter (at_ P) := Except.ok.inj h1
      show Except.ok ((only P s).setKids (st'.map Prod.snd)) = _
      rw [← ren_snd ρ, h4, part_snd]
      simp only [only, Elem.kids_setKids, setKids_twice]

/-- Sums of parts make a sum. -/
theorem nodeAdd_join {d : Device} {sc : Scope} {s o : Elem} (i1 : Indexable d sc s.kids) (i2 : Indexable d sc o.kids)
    (h : ∀ t : QName, ∃ r, nodeAdd d (only (fun s => decide (s = t)) o) sc (only (fun s => decide (s = t)) s) = .ok r) :
    ∃ r, nodeAdd d o sc s = .ok r := by
  rw [nodeAdd_eq_run i1 i2]
  obtain ⟨τ, hτ⟩ := zipIdx_tags s.kids
  obtain ⟨st, hst⟩ := run_join (d := d) (sc := sc) hτ (table_keeps d o.kids) (by
    intro t
    obtain ⟨r, hr⟩ := h t
    rw [nodeAdd_eq_run (by rw [only_kids]; exact indexable_only i1 _) (by rw [only_kids]; exact indexable_only i2 _),
      only_kids, only_kids] at hr
    have h1 := table_filter d o.kids (fun s => decide (s = t))
    rw [h1]
    obtain ⟨ρ, h2⟩ := run_only d sc (fun s => decide (s = t)) s.kids (table d (o.kids.filter (fun k => decide (k.tag = t))))
    rw [h2]
    cases h3 : run d sc (s.kids.filter (fun k => decide (k.tag = t))).zipIdx
        (table d (o.kids.filter (fun k => decide (k.tag = t)))) with
    | error e => rw [h3] at hr; cases hr
    | ok st' => exact ⟨_, rfl⟩)
  exact ⟨_, by rw [hst]; rfl⟩

/-- A delta about nodes of some names: the outcome depends on the nodes of these names only, and the others stay. -/
theorem nodeAdd_only {d : Device} {sc : Scope} {s o : Elem} (i1 : Indexable d sc s.kids) (i2 : Indexable d sc o.kids)
    {P : QName → Bool} (hP : ∀ k ∈ o.kids, P k.tag = true) :
    (∀ x, nodeAdd d o sc s = .error x ↔ nodeAdd d o sc (only P s) = .error x) ∧
    (∀ r, nodeAdd d o sc s = .ok r → nodeAdd d o sc (only P s) = .ok (only P r) ∧
      only (fun t => !P t) r = only (fun t => !P t) s) := by
  rw [nodeAdd_eq_run i1 i2, nodeAdd_eq_run (by rw [only_kids]; exact indexable_only i1 _) i2]
  obtain ⟨τ, hτ⟩ := zipIdx_tags s.kids
  have h1 := run_part (P := P) (d := d) (sc := sc) (bs := table d o.kids) hτ (by
    intro b hb
    refine ⟨?_, table_keeps d _ b hb⟩
    obtain ⟨k, hk, rfl⟩ := List.mem_map.1 hb
    exact hP k hk)
  obtain ⟨ρ, h2⟩ := run_only d sc P s.kids (table d o.kids)
  rw [h2] at h1
  rw [only_kids]
  cases h3 : run d sc s.kids.zipIdx (table d o.kids) with
  | error e =>
    cases h4 : run d sc (s.kids.filter (fun k => P k.tag)).zipIdx (table d o.kids) with
    | error e' =>
      rw [h3, h4] at h1
      have : e = e' := h1
      subst this
      exact ⟨fun x => by simp [Except.map], fun r hr => by simp [Except.map] at hr⟩
    | ok st' => rw [h3, h4] at h1; exact h1.elim
  | ok st =>
    cases h4 : run d sc (s.kids.filter (fun k => P k.tag)).zipIdx (table d o.kids) with
    | error e' => rw [h3, h4] at h1; exact h1.elim
    | ok st' =>
      rw [h3, h4] at h1
      obtain ⟨h5, h6, _⟩ := h1
      refine ⟨fun x => by simp [Except.map], fun r hr => ?_⟩
      have hr' : s.setKids (st.map Prod.snd) = r := Except.ok.inj hr
      subst hr'
      constructor
      · show Except.ok ((only P s).setKids (st'.map Prod.snd)) = _
        rw [← ren_snd ρ, ← h5, part_snd]
        simp only [only, Elem.kids_setKids, setKids_twice]
      · have h7 := congrArg (List.map Prod.snd) h6
        have e1 := part_snd (fun t => !P t) st
        have e2 := part_snd (fun t => !P t) (s.kids.zipIdx.map (fun p => ((some p.2, p.1) : Cell)))
        have e3 : ∀ l : List Cell, l.filter (fun c => !at_ P c) = l.filter (at_ fun t => !P t) := fun l => rfl
        rw [e3, e3, e1, e2] at h7
        have e4 : (s.kids.zipIdx.map (fun p => ((some p.2, p.1) : Cell))).map Prod.snd = s.kids := by
          rw [List.map_map]
          exact List.zipIdx_map_fst 0 s.kids
        rw [e4] at h7
        simp only [only, Elem.kids_setKids, setKids_twice, h7]

end Apart
end NcDiff
