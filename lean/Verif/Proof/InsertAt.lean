import Verif.Spec.Insert
import Verif.Proof.Fault
import Verif.Proof.Shape
import Verif.Proof.Tree
/-!
# Positions of new and moved entries
-/

namespace NcDiff

/-! ## Anchors -/

theorem resolve_of_denotes {m : NsMap} {id : KeyId} {q : QName} (h : Denotes m id q) :
    resolveKeyId m id = .ok q := by
  cases id with
  | brace q' => exact congrArg Except.ok h
  | bare n => obtain ⟨rfl, h⟩ := h; unfold resolveKeyId; rw [h]
  | prefixed p n => obtain ⟨rfl, h⟩ := h; unfold resolveKeyId; simp [h]

theorem parsePreds_ok {m : NsMap} : ∀ {ps : List (KeyId × String)} {qs : List (QName × String)},
    parsePreds m ps = .ok qs → List.Forall₂ (fun x y => Denotes m x.1 y.1 ∧ x.2 = y.2) ps qs
  | [], qs, h => by cases h; exact .nil
  | (k, t) :: r, qs, h => by
    unfold parsePreds at h
    split at h
    · cases h
    · simp only [bind, Except.bind] at h
      cases h1 : resolveKeyId m k with
      | error x => simp [h1] at h
      | ok q =>
        simp only [h1] at h
        cases h2 : parsePreds m r with
        | error x => simp [h2] at h
        | ok r' =>
          simp only [h2, pure, Except.pure] at h; cases h
          exact .cons ⟨denotes_of_resolve h1, rfl⟩ (parsePreds_ok h2)

theorem parsePreds_given {m : NsMap} : ∀ {ps : List (KeyId × String)},
    (∀ x ∈ ps, '\'' ∉ x.2.toList ∧ ∃ q, Denotes m x.1 q) → ∃ qs, parsePreds m ps = .ok qs
  | [], _ => ⟨[], rfl⟩
  | (k, t) :: r, h => by
    obtain ⟨h1, q, h2⟩ := h (k, t) (by simp)
    obtain ⟨qs, h3⟩ := parsePreds_given (ps := r) (fun x hx => h x (by simp [hx]))
    refine ⟨(q, t) :: qs, ?_⟩
    unfold parsePreds
    simp only [h1, if_false, resolve_of_denotes h2, h3, bind, Except.bind]
    rfl

/-- The anchor of an entry. -/
def anchorOf (sn : SNode) (o : Elem) : Except Err (Cell → Bool) :=
  match sn.ntype with
  | .leafList => valueAnchor o
  | _ => keyAnchor o

theorem anchor_named {sn : SNode} {o : Elem} (hn : sn.ntype = .list ∨ sn.ntype = .leafList)
    {p : Cell → Bool} (h : anchorOf sn o = .ok p) (c : Cell) : p c = true ↔ Named sn o c.2 := by
  unfold anchorOf at h
  unfold Named
  rcases hn with hn | hn <;> simp only [hn] at h ⊢
  · unfold keyAnchor at h
    cases hk : o.get .key with
    | none => simp [hk] at h
    | some v =>
      cases v with
      | str s => simp [hk] at h
      | pred ps =>
        simp only [hk, bind, Except.bind] at h
        cases hq : parsePreds o.nsmap ps with
        | error x => simp [hq] at h
        | ok qs =>
          simp only [hq, pure, Except.pure] at h; cases h
          unfold keyIs
          rw [Bool.and_eq_true, decide_eq_true_eq]
          refine and_congr Iff.rfl ?_
          have hf := parsePreds_ok hq
          simp only [Option.some.injEq, AVal.pred.injEq, exists_eq_left']
          clear hq hk
          induction hf with
          | nil => simp
          | cons hd _ ih =>
            rename_i x y _ _ _
            simp only [List.all_cons, Bool.and_eq_true, List.mem_cons, forall_eq_or_imp]
            refine and_congr ?_ ih
            simp only [List.any_eq_true, decide_eq_true_eq]
            constructor
            · rintro ⟨k, hk, he⟩
              exact ⟨y.1, hd.1, k, hk, by rw [he, hd.2]⟩
            · rintro ⟨q, hq, k, hk, he⟩
              have : q = y.1 := Except.ok.inj ((resolve_of_denotes hq).symm.trans (resolve_of_denotes hd.1))
              subst this
              exact ⟨k, hk, by rw [he, hd.2]⟩
  · unfold valueAnchor at h
    cases hv : o.get .value with
    | none => simp [hv] at h
    | some v =>
      simp only [hv, Except.ok.injEq] at h; subst h
      unfold valueIs
      cases v with
      | str s => simp
      | pred ps => simp

theorem anchor_missing {sn : SNode} {o : Elem} (h : AnchorMissing sn o) :
    anchorOf sn o = .error (.configDelta .insertMissing) := by
  unfold AnchorMissing at h
  unfold anchorOf valueAnchor keyAnchor
  cases hn : sn.ntype <;> simp [hn] at h ⊢ <;> simp [h]

theorem anchor_given {sn : SNode} {o : Elem} (h : AnchorGiven sn o) : ∃ p, anchorOf sn o = .ok p := by
  unfold AnchorGiven at h
  unfold anchorOf valueAnchor keyAnchor
  cases hn : sn.ntype <;> simp only [hn] at h ⊢
  · obtain ⟨v, hv⟩ := h; simp [hv]
  · obtain ⟨ps, hp, h⟩ := h
    obtain ⟨qs, hq⟩ := parsePreds_given h
    simp only [hp, hq, bind, Except.bind]
    exact ⟨_, rfl⟩

/-! ## Placement -/

theorem inserts_iff {o : Elem} {i : String} (hi : i ≠ "?") : Inserts o i ↔ insertOf o = some i := by
  constructor
  · intro h; unfold insertOf; unfold Inserts at h; simp [h]
  · exact get_insert hi

theorem putFirst_spec (t : QName) (c : Cell) (st : List Cell) :
    ∃ l r, st = l ++ r ∧ putFirst t c st = l ++ c :: r ∧ ∀ x ∈ l, x.2.tag ≠ t := by
  unfold putFirst
  cases h : insertBefore (hasTag t) c st with
  | none => exact ⟨st, [], by simp, by simp, by simpa [hasTag] using insertBefore_none.1 h⟩
  | some s =>
    obtain ⟨l, x, r, h1, h2, _, h4⟩ := insertBefore_some h
    exact ⟨l, x :: r, h1, by simp [h4], by simpa [hasTag] using h2⟩

theorem putLast_spec (t : QName) (c : Cell) (st : List Cell) :
    ∃ l r, st = l ++ r ∧ putLast t c st = l ++ c :: r ∧ ∀ x ∈ r, x.2.tag ≠ t := by
  unfold putLast
  cases h : insertAfterLast (hasTag t) c st with
  | none => exact ⟨st, [], by simp, by simp, by simp⟩
  | some s =>
    obtain ⟨l, x, r, h1, h2, _, h4⟩ := insertAfterLast_some h
    exact ⟨l ++ [x], r, by simp [h1], by simp [h4], by simpa [hasTag] using h2⟩

section
variable {sn : SNode} {o : Elem}

theorem mapsnd_ne {l : List Cell} {t : QName} (h : ∀ x ∈ l, x.2.tag ≠ t) :
    ∀ x ∈ l.map Prod.snd, x.tag ≠ t := by
  intro x hx
  obtain ⟨c, hc, rfl⟩ := List.mem_map.1 hx
  exact h c hc

theorem mapsnd_unnamed {l : List Cell} {p : Cell → Bool} (hp : ∀ c, p c = true ↔ Named sn o c.2)
    (h : ∀ x ∈ l, p x = false) : ∀ x ∈ l.map Prod.snd, ¬ Named sn o x := by
  intro x hx hN
  obtain ⟨c, hc, rfl⟩ := List.mem_map.1 hx
  have := (hp c).2 hN
  rw [h c hc] at this; cases this

theorem insertBefore_placed {p : Cell → Bool} (hp : ∀ c, p c = true ↔ Named sn o c.2)
    (hi : Inserts o "before") {c : Cell} {st st' : List Cell} (h : insertBefore p c st = some st') :
    ∃ l r, st = l ++ r ∧ st' = l ++ c :: r ∧
      ∀ e, PlacedAs sn o e (st.map Prod.snd) (l.map Prod.snd ++ e :: r.map Prod.snd) := by
  obtain ⟨l, x, r, h1, h2, h3, h4⟩ := insertBefore_some h
  refine ⟨l, x :: r, h1, h4, fun e => ?_⟩
  exact .before (l.map Prod.snd) (r.map Prod.snd) x.2 hi (by simp [h1]) (by simp)
    ((hp x).1 h3) (mapsnd_unnamed hp h2)

theorem insertAfter_placed {p : Cell → Bool} (hp : ∀ c, p c = true ↔ Named sn o c.2)
    (hi : Inserts o "after") {c : Cell} {st st' : List Cell} (h : insertAfter p c st = some st') :
    ∃ l r, st = l ++ r ∧ st' = l ++ c :: r ∧
      ∀ e, PlacedAs sn o e (st.map Prod.snd) (l.map Prod.snd ++ e :: r.map Prod.snd) := by
  obtain ⟨l, x, r, h1, h2, h3, h4⟩ := insertAfter_some h
  refine ⟨l ++ [x], r, by simp [h1], by simp [h4], fun e => ?_⟩
  exact .after (l.map Prod.snd) (r.map Prod.snd) x.2 hi (by simp [h1]) (by simp)
    ((hp x).1 h3) (mapsnd_unnamed hp h2)

theorem putFirst_placed (hi : Inserts o "first") (c : Cell) (st : List Cell) :
    ∃ l r, st = l ++ r ∧ putFirst o.tag c st = l ++ c :: r ∧
      ∀ e, PlacedAs sn o e (st.map Prod.snd) (l.map Prod.snd ++ e :: r.map Prod.snd) := by
  obtain ⟨l, r, h1, h2, h3⟩ := putFirst_spec o.tag c st
  exact ⟨l, r, h1, h2, fun e => .first _ _ hi (by simp [h1]) rfl (mapsnd_ne h3)⟩

theorem putLast_placed (hi : Inserts o "last") (c : Cell) (st : List Cell) :
    ∃ l r, st = l ++ r ∧ putLast o.tag c st = l ++ c :: r ∧
      ∀ e, PlacedAs sn o e (st.map Prod.snd) (l.map Prod.snd ++ e :: r.map Prod.snd) := by
  obtain ⟨l, r, h1, h2, h3⟩ := putLast_spec o.tag c st
  exact ⟨l, r, h1, h2, fun e => .last _ _ hi (by simp [h1]) rfl (mapsnd_ne h3)⟩

theorem not_asks {i : String} (h : insertOf o = some i) (h1 : i ≠ "first") (h2 : i ≠ "last")
    (h3 : i ≠ "before") (h4 : i ≠ "after") : ¬ Asks sn o := by
  rintro ⟨_, _, j, hj, hi⟩
  have hq : j ≠ "?" := by
    rintro rfl; simp at hj
  rw [inserts_iff hq, h] at hi
  cases hi
  simp [h1, h2, h3, h4] at hj

theorem not_asks_none (h : o.get .insert = none) : ¬ Asks sn o := by
  rintro ⟨_, _, j, hj, hi⟩
  unfold Inserts at hi
  rw [h] at hi; cases hi

theorem insertOf_none_iff : insertOf o = none ↔ o.get .insert = none := by
  unfold insertOf
  cases o.get .insert with
  | none => simp
  | some v => cases v <;> simp

/-- Where a new entry arrives. -/
theorem placeNew_arrives (hn : sn.ntype = .list ∨ sn.ntype = .leafList) {c : Cell} {st st' : List Cell}
    (h : placeNew sn (anchorOf sn o) o c st = .ok st') :
    Arrives sn o c.2 (st.map Prod.snd) (st'.map Prod.snd) := by
  have last : sn.userOrdered = false ∨ o.get .insert = none → st' = putLast o.tag c st →
      Arrives sn o c.2 (st.map Prod.snd) (st'.map Prod.snd) := by
    rintro hi rfl
    obtain ⟨l, r, h1, h2, h3⟩ := putLast_spec o.tag c st
    exact .last (l.map Prod.snd) (r.map Prod.snd) hn hi (by simp [h1]) (by simp [h2]) (mapsnd_ne h3)
  unfold placeNew at h
  by_cases hu : sn.userOrdered = true
  swap
  · simp only [hu] at h
    cases h
    exact last (Or.inl (by simpa using hu)) rfl
  simp only [hu, if_true] at h
  cases hoi : insertOf o with
  | none =>
    simp only [hoi] at h; cases h
    exact last (Or.inr (insertOf_none_iff.1 hoi)) rfl
  | some i =>
    simp only [hoi] at h
    have fin : i ∈ ["first", "last", "before", "after"] → (∃ l r, st = l ++ r ∧ st' = l ++ c :: r ∧
        ∀ e, PlacedAs sn o e (st.map Prod.snd) (l.map Prod.snd ++ e :: r.map Prod.snd)) →
        Arrives sn o c.2 (st.map Prod.snd) (st'.map Prod.snd) := by
      rintro him ⟨l, r, h1, h2, h3⟩
      refine .placed ⟨hn, hu, i, him, (inserts_iff ?_).2 hoi⟩ ?_
      · rintro rfl; simp at him
      · have := h3 c.2
        simpa [h2] using this
    by_cases h1 : i = "first"
    · rw [if_pos h1] at h; cases h
      subst h1
      exact fin (by simp) (putFirst_placed ((inserts_iff (by decide)).2 hoi) c st)
    rw [if_neg h1] at h
    by_cases h2 : i = "last"
    · rw [if_pos h2] at h; cases h
      subst h2
      exact fin (by simp) (putLast_placed ((inserts_iff (by decide)).2 hoi) c st)
    rw [if_neg h2] at h
    by_cases h3 : i = "before"
    · rw [if_pos h3] at h
      subst h3
      obtain ⟨p, hp, h⟩ := bind_ok.1 h
      exact fin (by simp) (insertBefore_placed (anchor_named hn hp) ((inserts_iff (by decide)).2 hoi) (orWrong_ok h))
    rw [if_neg h3] at h
    by_cases h4 : i = "after"
    · rw [if_pos h4] at h
      subst h4
      obtain ⟨p, hp, h⟩ := bind_ok.1 h
      exact fin (by simp) (insertAfter_placed (anchor_named hn hp) ((inserts_iff (by decide)).2 hoi) (orWrong_ok h))
    rw [if_neg h4] at h
    cases h
    refine .ignored hn hu ?_ (not_asks hoi h1 h2 h3 h4) rfl
    cases hg : o.get .insert with
    | none => rw [insertOf_none_iff.2 hg] at hoi; cases hoi
    | some v => exact ⟨v, rfl⟩

theorem find_split {p : Cell → Bool} {st : List Cell} {c : Cell} (h : st.find? p = some c) :
    ∃ l r, st = l ++ c :: r ∧ p c = true ∧ ∀ x ∈ l, p x = false := by
  obtain ⟨h1, l, r, h2, h3⟩ := List.find?_eq_some_iff_append.1 h
  exact ⟨l, r, h2, h1, by simpa using h3⟩

/-- The handle `h` occurs once, at `s`. -/
theorem split_unique {h : Nat} {A B l r : List Cell} {x y : Cell} (hA : ∀ c ∈ A, isCell h c = false)
    (hB : ∀ c ∈ B, isCell h c = false) (hy : isCell h y = true)
    (he : A ++ x :: B = l ++ y :: r) : A = l ∧ x = y ∧ B = r := by
  induction A generalizing l with
  | nil =>
    cases l with
    | nil => simpa using he
    | cons a l =>
      simp only [List.nil_append, List.cons_append, List.cons.injEq] at he
      have := hB y (by rw [he.2]; simp)
      rw [this] at hy; cases hy
  | cons a A ih =>
    cases l with
    | nil =>
      simp only [List.cons_append, List.nil_append, List.cons.injEq] at he
      have := hA a (by simp)
      rw [he.1, hy] at this; cases this
    | cons b l =>
      simp only [List.cons_append, List.cons.injEq] at he
      obtain ⟨h1, h2, h3⟩ := ih (fun c hc => hA c (by simp [hc])) he.2
      exact ⟨by rw [he.1, h1], h2, h3⟩

theorem removeCell_split {h : Nat} {A B : List Cell} {s : Elem} (hA : ∀ c ∈ A, isCell h c = false)
    (hB : ∀ c ∈ B, isCell h c = false) : removeCell h (A ++ (some h, s) :: B) = A ++ B := by
  unfold removeCell
  rw [List.filter_append, List.filter_cons]
  simp only [isCell, decide_true, Bool.not_true, Bool.false_eq_true, if_false]
  congr 1
  · rw [List.filter_eq_self]; intro c hc; have := hA c hc; simpa [isCell] using this
  · rw [List.filter_eq_self]; intro c hc; have := hB c hc; simpa [isCell] using this

/-- Where an existing entry goes. -/
theorem placeOld_moves (hn : sn.ntype = .list ∨ sn.ntype = .leafList) {h : Nat} {s : Elem}
    {A B st' : List Cell} (hA : ∀ c ∈ A, isCell h c = false) (hB : ∀ c ∈ B, isCell h c = false)
    (hp : placeOld sn (anchorOf sn o) o h s (A ++ (some h, s) :: B) = .ok st') :
    ∃ A1 B1, st' = A1 ++ (some h, s) :: B1 ∧ (∀ c ∈ A1, isCell h c = false) ∧
      (∀ c ∈ B1, isCell h c = false) ∧
      ∀ e, Moves sn o s e (A.map Prod.snd) (B.map Prod.snd) (A1.map Prod.snd ++ e :: B1.map Prod.snd) := by
  have hAB : ∀ c ∈ A ++ B, isCell h c = false := by
    intro c hc; rcases List.mem_append.1 hc with hc | hc
    · exact hA c hc
    · exact hB c hc
  have stay : st' = A ++ (some h, s) :: B → (∀ e, Moves sn o s e (A.map Prod.snd) (B.map Prod.snd)
      (A.map Prod.snd ++ e :: B.map Prod.snd)) →
      ∃ A1 B1, st' = A1 ++ (some h, s) :: B1 ∧ (∀ c ∈ A1, isCell h c = false) ∧
      (∀ c ∈ B1, isCell h c = false) ∧
      ∀ e, Moves sn o s e (A.map Prod.snd) (B.map Prod.snd) (A1.map Prod.snd ++ e :: B1.map Prod.snd) :=
    fun h1 h2 => ⟨A, B, h1, hA, hB, h2⟩
  have hcell : isCell h ((some h, s) : Cell) = true := by simp [isCell]
  unfold placeOld at hp
  by_cases hu : sn.userOrdered = true
  swap
  · simp only [hu] at hp
    cases hp
    exact stay rfl (fun e => .stays (fun h => hu h.2.1) rfl)
  simp only [hu, if_true] at hp
  cases hoi : insertOf o with
  | none =>
    simp only [hoi] at hp; cases hp
    exact stay rfl (fun e => .stays (not_asks_none (insertOf_none_iff.1 hoi)) rfl)
  | some i =>
    simp only [hoi] at hp
    have asks : i ∈ ["first", "last", "before", "after"] → Asks sn o := fun him =>
      ⟨hn, hu, i, him, (inserts_iff (by rintro rfl; simp at him)).2 hoi⟩
    have fin : i ∈ ["first", "last", "before", "after"] → (∃ l r, A ++ B = l ++ r ∧ st' = l ++ (some h, s) :: r ∧
        ∀ e, PlacedAs sn o e ((A ++ B).map Prod.snd) (l.map Prod.snd ++ e :: r.map Prod.snd)) →
        ∃ A1 B1, st' = A1 ++ (some h, s) :: B1 ∧ (∀ c ∈ A1, isCell h c = false) ∧
        (∀ c ∈ B1, isCell h c = false) ∧
        ∀ e, Moves sn o s e (A.map Prod.snd) (B.map Prod.snd) (A1.map Prod.snd ++ e :: B1.map Prod.snd) := by
      rintro him ⟨l, r, h1, h2, h3⟩
      rw [h1] at hAB
      refine ⟨l, r, h2, fun c hc => hAB c (by simp [hc]), fun c hc => hAB c (by simp [hc]), fun e => ?_⟩
      exact .placed (asks him) (by simpa using h3 e)
    by_cases h1 : i = "first"
    · rw [if_pos h1] at hp
      subst h1
      have hi : Inserts o "first" := (inserts_iff (by decide)).2 hoi
      cases hf : (A ++ (some h, s) :: B).find? (hasTag o.tag) with
      | none => simp [hf] at hp
      | some c =>
        simp only [hf] at hp
        split at hp
        · rename_i hc
          cases hp
          obtain ⟨l, r, e1, _, e3⟩ := find_split hf
          obtain ⟨rfl, _, rfl⟩ := split_unique hA hB hc e1
          refine stay rfl (fun e => .placed (asks (by simp)) (.first _ _ hi rfl rfl (mapsnd_ne ?_)))
          simpa [hasTag] using e3
        · rw [removeCell_split hA hB] at hp
          cases hp
          exact fin (by simp) (putFirst_placed hi _ _)
    rw [if_neg h1] at hp
    by_cases h2 : i = "last"
    · rw [if_pos h2] at hp
      subst h2
      have hi : Inserts o "last" := (inserts_iff (by decide)).2 hoi
      cases hf : (A ++ (some h, s) :: B).reverse.find? (hasTag o.tag) with
      | none => simp only [hf] at hp; cases hp
      | some c =>
        simp only [hf] at hp
        split at hp
        · rename_i hc
          cases hp
          obtain ⟨l, r, e1, _, e3⟩ := find_split hf
          have e1' := congrArg List.reverse e1
          simp only [List.reverse_reverse, List.reverse_append, List.reverse_cons, List.append_assoc,
            List.singleton_append] at e1'
          obtain ⟨rfl, _, rfl⟩ := split_unique hA hB hc e1'
          refine stay rfl (fun e => .placed (asks (by simp)) (.last _ _ hi rfl rfl (mapsnd_ne ?_)))
          simpa [hasTag] using e3
        · rw [removeCell_split hA hB] at hp
          cases hp
          exact fin (by simp) (putLast_placed hi _ _)
    rw [if_neg h2] at hp
    have self : ∀ {p : Cell → Bool}, (∀ c, p c = true ↔ Named sn o c.2) →
        Inserts o "before" ∨ Inserts o "after" → Asks sn o → ∀ {c}, (A ++ (some h, s) :: B).find? p = some c →
        isCell h c = true → ∀ e, Moves sn o s e (A.map Prod.snd) (B.map Prod.snd)
          (A.map Prod.snd ++ e :: B.map Prod.snd) := by
      intro p hpn hi ha c hf hc e
      obtain ⟨l, r, e1, e2, e3⟩ := find_split hf
      obtain ⟨rfl, rfl, rfl⟩ := split_unique hA hB hc e1
      exact .itself hi ha ((hpn _).1 e2) (mapsnd_unnamed hpn e3) rfl
    by_cases h3 : i = "before"
    · rw [if_pos h3] at hp
      subst h3
      have hi : Inserts o "before" := (inserts_iff (by decide)).2 hoi
      obtain ⟨p, hpa, hp⟩ := bind_ok.1 hp
      have hpn := anchor_named hn hpa
      unfold moveCell at hp
      cases hf : (A ++ (some h, s) :: B).find? p with
      | none => simp [hf] at hp
      | some c =>
        simp only [hf] at hp
        split at hp
        · rename_i hc
          cases hp
          exact stay rfl (self hpn (Or.inl hi) (asks (by simp)) hf hc)
        · rw [removeCell_split hA hB] at hp
          exact fin (by simp) (insertBefore_placed hpn hi (orWrong_ok hp))
    rw [if_neg h3] at hp
    by_cases h4 : i = "after"
    · rw [if_pos h4] at hp
      subst h4
      have hi : Inserts o "after" := (inserts_iff (by decide)).2 hoi
      obtain ⟨p, hpa, hp⟩ := bind_ok.1 hp
      have hpn := anchor_named hn hpa
      unfold moveCell at hp
      cases hf : (A ++ (some h, s) :: B).find? p with
      | none => simp [hf] at hp
      | some c =>
        simp only [hf] at hp
        split at hp
        · rename_i hc
          cases hp
          exact stay rfl (self hpn (Or.inr hi) (asks (by simp)) hf hc)
        · rw [removeCell_split hA hB] at hp
          exact fin (by simp) (insertAfter_placed hpn hi (orWrong_ok hp))
    rw [if_neg h4] at hp
    cases hp
    exact stay rfl (fun e => .stays (not_asks hoi h1 h2 h3 h4) rfl)

end

/-! ## Steps -/

theorem anchor_list {sn : SNode} {o : Elem} (h : sn.ntype = .list) : anchorOf sn o = keyAnchor o := by
  unfold anchorOf; rw [h]

theorem anchor_leafList {sn : SNode} {o : Elem} (h : sn.ntype = .leafList) :
    anchorOf sn o = valueAnchor o := by
  unfold anchorOf; rw [h]

section
variable {d : Device} {sc : Scope}

theorem created_of {o : Elem} {f : Found} (hf : d.lookup sc o.tag = .ok f) (hk : KidOk d f.node o)
    (hkeys : f.node.ntype = .list → ∀ q ∈ f.node.keys,
      (∃ g, d.lookup (.node f.node) q = .ok g ∧ g.node.ntype = .leaf ∧
        ∀ c ∈ o.childrenWith q, KeyOk d g.node c) ∧
      ∀ c ∈ o.childrenWith q, opOf c = "merge") {st st' : List Cell}
    (h : addWithoutPeer d sc st (o, addFn d o) = .ok st') :
    Created d sc o (st.map Prod.snd) (st'.map Prod.snd) := by
  rcases (addWithoutPeer_ok hf).1 h with ⟨hop, rfl⟩ | ⟨hop, e, hc, hp⟩
  · exact .nothing hop rfl
  · obtain ⟨_, _, _, hsame⟩ := newContent_ok hf hk hkeys hc
    refine .new f e hf hsame hop ?_
    unfold newPlace at hp
    unfold KidOk at hk
    cases hn : f.node.ntype <;> simp only [hn] at hp hk
    · cases hp; exact .unordered (Or.inl hn) (by simp [append])
    · rw [← anchor_leafList hn] at hp
      exact placeNew_arrives (Or.inr hn) hp
    · cases hp; exact .unordered (Or.inr hn) (by simp [append])
    · rw [← anchor_list hn] at hp
      exact placeNew_arrives (Or.inl hn) hp

theorem atU_split {u : UID} {st : List Cell} {c : Cell} (h : atU d sc u st = [c]) :
    ∃ A B, st = A ++ c :: B ∧ (∀ x ∈ A, uid d sc x.2 ≠ u) ∧ (∀ x ∈ B, uid d sc x.2 ≠ u) := by
  unfold atU at h
  have hm : c ∈ st.filter (fun c => decide (uid d sc c.2 = u)) := by rw [h]; simp
  obtain ⟨h1, h2⟩ := List.mem_filter.1 hm
  obtain ⟨A, B, rfl⟩ := List.append_of_mem h1
  rw [List.filter_append, List.filter_cons, if_pos h2] at h
  have hl := congrArg List.length h
  simp only [List.length_append, List.length_cons, List.length_nil] at hl
  have hA : (A.filter (fun c => decide (uid d sc c.2 = u))) = [] :=
    List.length_eq_zero_iff.1 (by omega)
  have hB : (B.filter (fun c => decide (uid d sc c.2 = u))) = [] :=
    List.length_eq_zero_iff.1 (by omega)
  rw [List.filter_eq_nil_iff] at hA hB
  exact ⟨A, B, rfl, by simpa using hA, by simpa using hB⟩

theorem setCell_split {h : Nat} {A B : List Cell} {s e : Elem} (hA : ∀ c ∈ A, isCell h c = false)
    (hB : ∀ c ∈ B, isCell h c = false) :
    (setCell h e (A ++ (some h, s) :: B)).map Prod.snd = A.map Prod.snd ++ e :: B.map Prod.snd := by
  unfold setCell
  have g : ∀ l : List Cell, (∀ c ∈ l, isCell h c = false) →
      l.map (fun c => if isCell h c = true then (c.1, e) else c) = l := by
    intro l hl
    conv_rhs => rw [← List.map_id l]
    apply List.map_congr_left
    intro c hc; simp [hl c hc]
  rw [List.map_append, List.map_cons, g A hA, g B hB]
  simp [isCell]

theorem replaceCell_split {h : Nat} {A B : List Cell} {s e : Elem} (hA : ∀ c ∈ A, isCell h c = false)
    (hB : ∀ c ∈ B, isCell h c = false) :
    (replaceCell h e (A ++ (some h, s) :: B)).map Prod.snd = A.map Prod.snd ++ e :: B.map Prod.snd := by
  unfold replaceCell
  have g : ∀ l : List Cell, (∀ c ∈ l, isCell h c = false) →
      l.map (fun c => if isCell h c = true then (none, e) else c) = l := by
    intro l hl
    conv_rhs => rw [← List.map_id l]
    apply List.map_congr_left
    intro c hc; simp [hl c hc]
  rw [List.map_append, List.map_cons, g A hA, g B hB]
  simp [isCell]

theorem peerContent_op {sn : SNode} {o s : Elem} {x : PeerRes} (hk : KidOk d sn o)
    (hx : peerContent d sn (o, addFn d o) s = .ok x) :
    ((opOf o = "delete" ∨ opOf o = "remove" ∨ (sn.ntype = .container ∧ opOf o = "merge")) ∧ x = .gone) ∨
    ((opOf o = "merge" ∨ opOf o = "replace") ∧ x ≠ .gone) := by
  have tree : (sn.ntype = .container ∨ sn.ntype = .list) → peerTree sn (o, addFn d o) s = .ok x →
      ((opOf o = "delete" ∨ opOf o = "remove" ∨ (sn.ntype = .container ∧ opOf o = "merge")) ∧ x = .gone) ∨
      ((opOf o = "merge" ∨ opOf o = "replace") ∧ x ≠ .gone) := by
    intro hn hx
    unfold peerTree at hx
    split at hx
    · rename_i hm
      obtain ⟨e', _, hx⟩ := bind_ok.1 hx
      split at hx
      · rename_i hnp
        cases hx
        refine Or.inl ⟨Or.inr (Or.inr ⟨?_, hm⟩), rfl⟩
        rcases hn with hn | hn
        · exact hn
        · rw [notNP (by rw [hn]; decide)] at hnp; simp at hnp
      · cases hx; exact Or.inr ⟨Or.inl hm, by simp⟩
    split at hx
    · rename_i hm
      split at hx <;> cases hx
      exact Or.inr ⟨Or.inr hm, by simp⟩
    split at hx
    · cases hx
    split at hx
    · rename_i hm
      split at hx <;> cases hx
      exact Or.inl ⟨hm.elim Or.inl (fun h => Or.inr (Or.inl h)), rfl⟩
    · cases hx
  unfold peerContent at hx
  unfold KidOk at hk
  cases hn : sn.ntype <;> simp only [hn] at hx hk
  · split at hx
    · rename_i hm
      obtain ⟨e', _, hx⟩ := bind_ok.1 hx
      cases hx; exact Or.inr ⟨hm, by simp⟩
    split at hx
    · cases hx
    split at hx
    · rename_i hm
      cases hx; exact Or.inl ⟨hm.elim Or.inl (fun h => Or.inr (Or.inl h)), rfl⟩
    · cases hx
  · split at hx
    · rename_i hm
      cases hx; exact Or.inr ⟨hm, by simp⟩
    split at hx
    · cases hx
    split at hx
    · rename_i hm
      cases hx; exact Or.inl ⟨hm.elim Or.inl (fun h => Or.inr (Or.inl h)), rfl⟩
    · cases hx
  · simpa [hn] using tree (Or.inl hn) hx
  · simpa [hn] using tree (Or.inr hn) hx

theorem changed_of {ks : List Elem} {s o : Elem} {i : Nat} {f : Found}
    (hf : d.lookup sc s.tag = .ok f) (hs : KidOk d f.node s) (hk : KidOk d f.node o)
    (hso : SameInstance d sc s o)
    (hkeys : f.node.ntype = .list → ∀ q ∈ f.node.keys,
      (∃ g, d.lookup (.node f.node) q = .ok g ∧ g.node.ntype = .leaf ∧
        ∀ c ∈ o.childrenWith q, KeyOk d g.node c) ∧
      ∀ c ∈ o.childrenWith q, opOf c = "merge") (hh : KeysHonest d f s) {st st' : List Cell}
    (hI : HInv d sc ks st) (hi : ks[i]? = some s) (hat : atU d sc (uid d sc s) st = [(some i, s)])
    (hsame : ∀ e, uid d sc e = uid d sc s → e.tag = s.tag → ∀ x, peerContent d f.node (o, addFn d o) s = .ok x →
      x.elem s = some e → SameInstance d sc e o)
    (h : addWithPeer d sc st ((s, i), (o, addFn d o)) = .ok st') :
    Changed d sc s o (st.map Prod.snd) (st'.map Prod.snd) := by
  obtain ⟨st1, x, hpl, hco, rfl⟩ := (addWithPeer_ok hf).1 h
  obtain ⟨A, B, rfl, hA, hB⟩ := atU_split hat
  have hfo : d.lookup sc o.tag = .ok f := by rw [← hso.1]; exact hf
  have hA' : ∀ c ∈ A, isCell i c = false := by
    intro c hc
    by_contra hcc
    exact hA c hc (hI.uid_handle hi (by simp [hc]) (by simpa using hcc))
  have hB' : ∀ c ∈ B, isCell i c = false := by
    intro c hc
    by_contra hcc
    exact hB c hc (hI.uid_handle hi (by simp [hc]) (by simpa using hcc))
  have hx' : ∀ e, x.elem s = some e → SameInstance d sc e o := by
    intro e he
    obtain ⟨h1, h2⟩ := peerContent_uid hf hs hk hso hkeys hh hco e he
    exact hsame e h1 h2 x hco he
  rcases peerContent_op hk hco with ⟨hop, rfl⟩ | ⟨hop, hng⟩
  · have : st1 = A ++ (some i, s) :: B := by
      unfold peerPlace at hpl
      cases hn : f.node.ntype <;> simp only [hn] at hpl
      · cases hpl; rfl
      · rw [if_neg] at hpl
        · cases hpl; rfl
        · rw [hn] at hop
          rcases hop with h | h | ⟨h, _⟩
          · rw [h]; decide
          · rw [h]; decide
          · cases h
      · cases hpl; rfl
      · rw [if_neg] at hpl
        · cases hpl; rfl
        · rw [hn] at hop
          rcases hop with h | h | ⟨h, _⟩
          · rw [h]; decide
          · rw [h]; decide
          · cases h
      all_goals cases hpl; rfl
    subst this
    refine .gone f (A.map Prod.snd) (B.map Prod.snd) hfo (by simp) ?_ hop
    simp [PeerRes.apply, removeCell_split hA' hB']
  · have key : ∃ A1 B1, st1 = A1 ++ (some i, s) :: B1 ∧ (∀ c ∈ A1, isCell i c = false) ∧
        (∀ c ∈ B1, isCell i c = false) ∧
        ∀ e, Moves f.node o s e (A.map Prod.snd) (B.map Prod.snd) (A1.map Prod.snd ++ e :: B1.map Prod.snd) := by
      have stay : (f.node.ntype = .leaf ∨ f.node.ntype = .container) →
          Except.ok (ε := Err) (A ++ (some i, s) :: B) = .ok st1 →
          ∃ A1 B1, st1 = A1 ++ (some i, s) :: B1 ∧ (∀ c ∈ A1, isCell i c = false) ∧
          (∀ c ∈ B1, isCell i c = false) ∧
          ∀ e, Moves f.node o s e (A.map Prod.snd) (B.map Prod.snd) (A1.map Prod.snd ++ e :: B1.map Prod.snd) := by
        intro hn he
        cases he
        refine ⟨A, B, rfl, hA', hB', fun e => .stays (fun ha => ?_) rfl⟩
        rcases hn with hn | hn <;> rcases ha.1 with h | h <;> rw [hn] at h <;> cases h
      unfold peerPlace at hpl
      cases hn : f.node.ntype <;> simp only [hn] at hpl
      · exact stay (Or.inl hn) hpl
      · rw [if_pos hop, ← anchor_leafList hn] at hpl
        exact placeOld_moves (Or.inr hn) hA' hB' hpl
      · exact stay (Or.inr hn) hpl
      · rw [if_pos, ← anchor_list hn] at hpl
        · exact placeOld_moves (Or.inl hn) hA' hB' hpl
        · rcases hop with h | h <;> rw [h] <;> decide
      all_goals unfold KidOk at hk; simp only [hn] at hk
    obtain ⟨A1, B1, rfl, hA1, hB1, hm⟩ := key
    have fin : ∀ e, x.elem s = some e → ((x.apply i (A1 ++ (some i, s) :: B1)).map Prod.snd =
        A1.map Prod.snd ++ e :: B1.map Prod.snd) →
        Changed d sc s o ((A ++ (some i, s) :: B).map Prod.snd)
          ((x.apply i (A1 ++ (some i, s) :: B1)).map Prod.snd) := by
      intro e he hK
      refine .there f e (A.map Prod.snd) (B.map Prod.snd) hfo (by simp) (hx' e he) hop ?_
      rw [hK]; exact hm e
    cases x with
    | gone => exact absurd rfl hng
    | keep => exact fin s rfl (by simp [PeerRes.apply])
    | set e => exact fin e rfl (setCell_split hA1 hB1)
    | repl e => exact fin e rfl (replaceCell_split hA1 hB1)

theorem foldlM_runs {α σ τ : Type} {f : σ → α → Except Err σ} {R : α → τ → τ → Prop} {g : σ → τ}
    {Inv : List α → σ → Prop} : ∀ {l : List α} {s s' : σ},
    (∀ a l s s', Inv (a :: l) s → f s a = .ok s' → Inv l s' ∧ R a (g s) (g s')) → Inv l s →
    l.foldlM f s = .ok s' → Runs R l (g s) (g s')
  | [], s, s', _, _, h => by
    simp only [List.foldlM_nil, pure, Except.pure] at h; cases h; exact .nil _
  | a :: l, s, s', hstep, hI, h => by
    rw [List.foldlM_cons] at h
    obtain ⟨t, ht, h⟩ := bind_ok.1 h
    obtain ⟨h1, h2⟩ := hstep a l s t hI ht
    exact .cons h2 (foldlM_runs hstep h1 h)

theorem Runs.map {α β σ : Type} {R : α → σ → σ → Prop} {Q : β → σ → σ → Prop} {g : α → β} :
    ∀ {l : List α} {s t : σ}, Runs R l s t → (∀ a ∈ l, ∀ s t, R a s t → Q (g a) s t) →
    Runs Q (l.map g) s t := by
  intro l s t h
  induction h with
  | nil s => intro _; exact .nil s
  | cons h r ih =>
    intro hg
    exact .cons (hg _ (by simp) _ _ h) (ih (fun a ha => hg a (by simp [ha])))

end

end NcDiff
