import Verif.Spec.Refused
import Verif.Proof.Positioned
/-!
# When a position can be found
-/

namespace NcDiff
namespace Refuse

/-! ## Loops -/

theorem foldlM_split {σ α : Type} {f : σ → α → Except Err σ} : ∀ {l : List α} {s : σ} {x : Err},
    l.foldlM f s = .error x →
    ∃ pre a post t, l = pre ++ a :: post ∧ pre.foldlM f s = .ok t ∧ f t a = .error x
  | [], s, x, h => by simp [pure, Except.pure] at h
  | a :: l, s, x, h => by
    rw [List.foldlM_cons] at h
    cases hf : f s a with
    | error e =>
      simp only [hf, bind, Except.bind] at h; cases h
      exact ⟨[], a, l, s, rfl, rfl, hf⟩
    | ok t =>
      simp only [hf, bind, Except.bind] at h
      obtain ⟨pre, b, post, u, h1, h2, h3⟩ := foldlM_split h
      refine ⟨a :: pre, b, post, u, by rw [h1]; rfl, ?_, h3⟩
      rw [List.foldlM_cons, hf]; exact h2

theorem foldlM_each {σ α : Type} {f : σ → α → Except Err σ} {pre post : List α} {a : α} {s s' : σ}
    (h : (pre ++ a :: post).foldlM f s = .ok s') :
    ∃ t u, pre.foldlM f s = .ok t ∧ f t a = .ok u := by
  obtain ⟨t, ht⟩ := foldlM_append_ok h
  rw [List.foldlM_append, ht] at h
  simp only [bind, Except.bind, List.foldlM_cons] at h
  cases hf : f t a with
  | error e => simp [hf] at h
  | ok u => exact ⟨t, u, ht, hf⟩

theorem foldlM_keeps {σ α : Type} {f : σ → α → Except Err σ} {L : List α} {Inv : List α → σ → Prop}
    (step : ∀ pre a post s s', L = pre ++ a :: post → Inv pre s → f s a = .ok s' → Inv (pre ++ [a]) s')
    {s : σ} (h0 : Inv [] s) : ∀ {pre post : List α} {t : σ}, L = pre ++ post → pre.foldlM f s = .ok t →
    Inv pre t := by
  intro pre
  induction hl : pre.length generalizing pre with
  | zero =>
    intro post t _ h
    have := List.length_eq_zero_iff.1 hl
    subst this
    simp only [List.foldlM_nil, pure, Except.pure] at h; cases h; exact h0
  | succ n ih =>
    intro post t hL h
    have hne : pre ≠ [] := by rintro rfl; simp at hl
    obtain ⟨pre', a, rfl⟩ : ∃ pre' a, pre = pre' ++ [a] :=
      ⟨pre.dropLast, pre.getLast hne, (List.dropLast_append_getLast hne).symm⟩
    have ih := @ih pre' (by simpa using hl)
    clear hl hne
    rename' pre' => pre
    obtain ⟨u, v, h1, h2⟩ := foldlM_each h
    have hv : v = t := by
      rw [List.foldlM_append, h1] at h
      simp only [bind, Except.bind, List.foldlM_cons, h2, List.foldlM_nil, pure, Except.pure] at h
      exact Except.ok.inj h
    subst hv
    exact step pre a post u v (by rw [hL]; simp) (ih (post := a :: post) (by rw [hL]; simp) h1) h2

theorem nodup_split {α : Type} : ∀ {l l' r r' : List α} {a : α}, (l ++ a :: r).Nodup →
    l ++ a :: r = l' ++ a :: r' → l = l' ∧ r = r'
  | [], [], _, _, _, _, h => by simpa using h
  | [], b :: l', r, r', a, hn, h => by
    simp only [List.nil_append, List.cons_append, List.cons.injEq] at h
    obtain ⟨rfl, rfl⟩ := h
    simp at hn
  | b :: l, [], r, r', a, hn, h => by
    simp only [List.nil_append, List.cons_append, List.cons.injEq] at h
    obtain ⟨rfl, rfl⟩ := h
    simp at hn
  | b :: l, c :: l', r, r', a, hn, h => by
    simp only [List.cons_append, List.cons.injEq] at h
    obtain ⟨rfl, h⟩ := h
    rw [List.cons_append, List.nodup_cons] at hn
    obtain ⟨rfl, rfl⟩ := nodup_split hn.2 h
    exact ⟨rfl, rfl⟩

/-! ## Anchors -/

section
variable {sn : SNode} {o : Elem}

theorem parsePreds_error {m : NsMap} : ∀ {ps : List (KeyId × String)} {x : Err},
    parsePreds m ps = .error x →
    x = .syntaxError ∧ ¬ ∀ y ∈ ps, '\'' ∉ y.2.toList ∧ ∃ q, Denotes m y.1 q := by
  intro ps x h
  refine ⟨?_, fun hg => by obtain ⟨qs, hq⟩ := parsePreds_given hg; rw [hq] at h; cases h⟩
  induction ps generalizing x with
  | nil => simp [parsePreds] at h
  | cons p r ih =>
    obtain ⟨k, t⟩ := p
    unfold parsePreds at h
    split at h
    · cases h; rfl
    · simp only [bind, Except.bind] at h
      cases h1 : resolveKeyId m k with
      | error y =>
        simp only [h1] at h; cases h
        unfold resolveKeyId at h1
        cases k with
        | brace q => cases h1
        | bare n => cases h1
        | prefixed p n => 
          simp only at h1
          split at h1
          · cases h1
          · cases h1; rfl
      | ok q =>
        simp only [h1] at h
        cases h2 : parsePreds m r with
        | error y => simp only [h2] at h; cases h; exact ih h2
        | ok r' => simp [h2, pure, Except.pure] at h

theorem anchor_error {x : Err} (hn : sn.ntype = .list ∨ sn.ntype = .leafList)
    (h : anchorOf sn o = .error x) :
    (AnchorMissing sn o ∧ x = .configDelta .insertMissing) ∨
    (sn.ntype = .list ∧ ¬ AnchorMissing sn o ∧ ¬ AnchorGiven sn o ∧ x = .syntaxError) := by
  unfold anchorOf at h
  rcases hn with hn | hn <;> simp only [hn] at h
  · unfold keyAnchor at h
    unfold AnchorMissing AnchorGiven
    simp only [hn]
    cases hk : o.get .key with
    | none => simp only [hk] at h; cases h; exact Or.inl ⟨rfl, rfl⟩
    | some v =>
      cases v with
      | str s => simp only [hk] at h; cases h; exact Or.inr ⟨trivial, by simp, by simp, rfl⟩
      | pred ps =>
        simp only [hk, bind, Except.bind] at h
        cases hq : parsePreds o.nsmap ps with
        | ok qs => simp [hq, pure, Except.pure] at h
        | error y =>
          simp only [hq] at h; cases h
          obtain ⟨rfl, hb⟩ := parsePreds_error hq
          refine Or.inr ⟨trivial, by simp, ?_, rfl⟩
          rintro ⟨ps', hp, hg⟩
          cases hp
          exact hb hg
  · unfold valueAnchor at h
    unfold AnchorMissing
    simp only [hn]
    cases hv : o.get .value with
    | none => simp only [hv] at h; cases h; exact Or.inl ⟨rfl, rfl⟩
    | some v => simp [hv] at h

theorem anchor_unreadable (hn : sn.ntype = .list) (hg : ¬ AnchorGiven sn o) {p : Cell → Bool} :
    anchorOf sn o ≠ .ok p := by
  intro h
  unfold anchorOf at h
  simp only [hn] at h
  unfold keyAnchor at h
  apply hg
  unfold AnchorGiven
  simp only [hn]
  cases hk : o.get .key with
  | none => simp [hk] at h
  | some v =>
    cases v with
    | str s => simp [hk] at h
    | pred ps =>
      refine ⟨ps, rfl, ?_⟩
      simp only [hk, bind, Except.bind] at h
      cases hq : parsePreds o.nsmap ps with
      | error y => simp [hq] at h
      | ok qs =>
        clear hk h
        induction ps generalizing qs with
        | nil => simp
        | cons a r ih =>
          obtain ⟨k, t⟩ := a
          unfold parsePreds at hq
          split at hq
          · cases hq
          · rename_i hap
            simp only [bind, Except.bind] at hq
            cases h1 : resolveKeyId o.nsmap k with
            | error x => simp [h1] at hq
            | ok q =>
              simp only [h1] at hq
              cases h2 : parsePreds o.nsmap r with
              | error x => simp [h2] at hq
              | ok r' =>
                intro x hx
                rcases List.mem_cons.1 hx with rfl | hx
                · exact ⟨hap, q, denotes_of_resolve h1⟩
                · exact ih r' h2 x hx

/-- The anchor of `o` cannot be evaluated or names none of the cells. -/
def Lost (sn : SNode) (o : Elem) (st : List Cell) (x : Err) : Prop :=
  anchorOf sn o = .error x ∨
    (x = .configDelta .insertWrong ∧ ∀ c ∈ st, ¬ Named sn o c.2)

/-- The anchor of `o` names one of the cells. -/
def At (sn : SNode) (o : Elem) (st : List Cell) : Prop :=
  ∃ p, anchorOf sn o = .ok p ∧ ∃ c ∈ st, Named sn o c.2

theorem lost_of {p : Cell → Bool} (hn : sn.ntype = .list ∨ sn.ntype = .leafList) {st : List Cell}
    (hp : anchorOf sn o = .ok p) (h : ∀ c ∈ st, p c = false) :
    Lost sn o st (.configDelta .insertWrong) := by
  refine Or.inr ⟨rfl, ?_⟩
  intro c hc hN
  have := (anchor_named hn hp c).2 hN
  rw [h c hc] at this; cases this

theorem at_of {p : Cell → Bool} (hn : sn.ntype = .list ∨ sn.ntype = .leafList) {st : List Cell}
    (hp : anchorOf sn o = .ok p) (h : ¬ ∀ c ∈ st, p c = false) : At sn o st := by
  refine ⟨p, hp, ?_⟩
  by_contra hc
  apply h
  intro c hm
  cases hpc : p c with
  | false => rfl
  | true => exact absurd ⟨c, hm, (anchor_named hn hp c).1 hpc⟩ hc

theorem relative_insert (h : Inserts o "before" ∨ Inserts o "after") :
    insertOf o = some "before" ∨ insertOf o = some "after" := by
  rcases h with h | h
  · exact Or.inl ((inserts_iff (by decide)).1 h)
  · exact Or.inr ((inserts_iff (by decide)).1 h)

theorem placeNew_error (hn : sn.ntype = .list ∨ sn.ntype = .leafList) {c : Cell} {st : List Cell} {x : Err}
    (h : placeNew sn (anchorOf sn o) o c st = .error x) : Relative sn o ∧ Lost sn o st x := by
  unfold placeNew at h
  by_cases hu : sn.userOrdered = true
  swap
  · simp [hu] at h
  simp only [hu, if_true] at h
  cases hoi : insertOf o with
  | none => simp [hoi] at h
  | some i =>
    simp only [hoi] at h
    by_cases h1 : i = "first"
    · rw [if_pos h1] at h; cases h
    rw [if_neg h1] at h
    by_cases h2 : i = "last"
    · rw [if_pos h2] at h; cases h
    rw [if_neg h2] at h
    by_cases h3 : i = "before"
    · rw [if_pos h3] at h
      subst h3
      refine ⟨⟨hn, hu, Or.inl ((inserts_iff (by decide)).2 hoi)⟩, ?_⟩
      cases ha : anchorOf sn o with
      | error y => simp only [ha, bind, Except.bind] at h; cases h; exact Or.inl ha
      | ok p =>
        simp only [ha, bind, Except.bind] at h
        cases hb : insertBefore p c st with
        | some s => simp [hb, orWrong] at h
        | none =>
          simp only [hb, orWrong] at h; cases h
          exact lost_of hn ha (insertBefore_none.1 hb)
    rw [if_neg h3] at h
    by_cases h4 : i = "after"
    · rw [if_pos h4] at h
      subst h4
      refine ⟨⟨hn, hu, Or.inr ((inserts_iff (by decide)).2 hoi)⟩, ?_⟩
      cases ha : anchorOf sn o with
      | error y => simp only [ha, bind, Except.bind] at h; cases h; exact Or.inl ha
      | ok p =>
        simp only [ha, bind, Except.bind] at h
        cases hb : insertAfter p c st with
        | some s => simp [hb, orWrong] at h
        | none =>
          simp only [hb, orWrong] at h; cases h
          exact lost_of hn ha (insertAfter_none.1 hb)
    rw [if_neg h4] at h; cases h

theorem placeNew_at (hr : Relative sn o) {c : Cell} {st st' : List Cell}
    (h : placeNew sn (anchorOf sn o) o c st = .ok st') : At sn o st := by
  obtain ⟨hn, hu, hi⟩ := hr
  unfold placeNew at h
  simp only [hu, if_true] at h
  rcases relative_insert hi with hi | hi <;> simp only [hi] at h
  · rw [if_neg (by decide), if_neg (by decide), if_pos trivial] at h
    obtain ⟨p, hp, h⟩ := bind_ok.1 h
    refine at_of hn hp (fun hno => ?_)
    rw [insertBefore_none.2 hno] at h; cases h
  · rw [if_neg (by decide), if_neg (by decide), if_neg (by decide), if_pos trivial] at h
    obtain ⟨p, hp, h⟩ := bind_ok.1 h
    refine at_of hn hp (fun hno => ?_)
    rw [insertAfter_none.2 hno] at h; cases h

theorem moveCell_error {ins : (Cell → Bool) → Cell → List Cell → Option (List Cell)} {p : Cell → Bool}
    {h : Nat} {e : Elem} {st : List Cell} {x : Err}
    (hins : ∀ c st, ins p c st = none → ∀ y ∈ st, p y = false)
    (hm : moveCell ins p h e st = .error x) :
    x = .configDelta .insertWrong ∧ ∀ c ∈ st, p c = false := by
  unfold moveCell at hm
  cases hf : st.find? p with
  | none =>
    simp only [hf] at hm; cases hm
    exact ⟨rfl, by simpa using List.find?_eq_none.1 hf⟩
  | some c =>
    simp only [hf] at hm
    split at hm
    · cases hm
    · rename_i hc
      cases hi : ins p (some h, e) (removeCell h st) with
      | some s => simp [hi, orWrong] at hm
      | none =>
        have h1 : p c = true := by simpa using List.find?_some hf
        have h2 : c ∈ removeCell h st := List.mem_filter.2 ⟨List.mem_of_find?_eq_some hf, by simp [hc]⟩
        have := hins _ _ hi c h2
        rw [this] at h1; cases h1

theorem placeOld_error (hn : sn.ntype = .list ∨ sn.ntype = .leafList) {h : Nat} {e : Elem}
    {st : List Cell} {x : Err} (hme : ∃ c ∈ st, c.2.tag = o.tag)
    (hp : placeOld sn (anchorOf sn o) o h e st = .error x) : Relative sn o ∧ Lost sn o st x := by
  unfold placeOld at hp
  by_cases hu : sn.userOrdered = true
  swap
  · simp [hu] at hp
  simp only [hu, if_true] at hp
  obtain ⟨c0, hc0, ht0⟩ := hme
  cases hoi : insertOf o with
  | none => simp [hoi] at hp
  | some i =>
    simp only [hoi] at hp
    by_cases h1 : i = "first"
    · rw [if_pos h1] at hp
      cases hf : st.find? (hasTag o.tag) with
      | none =>
        have := List.find?_eq_none.1 hf c0 hc0
        simp [hasTag, ht0] at this
      | some c => simp only [hf] at hp; split at hp <;> cases hp
    rw [if_neg h1] at hp
    by_cases h2 : i = "last"
    · rw [if_pos h2] at hp
      cases hf : st.reverse.find? (hasTag o.tag) with
      | none =>
        have := List.find?_eq_none.1 hf c0 (by simpa using hc0)
        simp [hasTag, ht0] at this
      | some c => simp only [hf] at hp; split at hp <;> cases hp
    rw [if_neg h2] at hp
    by_cases h3 : i = "before"
    · rw [if_pos h3] at hp
      subst h3
      refine ⟨⟨hn, hu, Or.inl ((inserts_iff (by decide)).2 hoi)⟩, ?_⟩
      cases ha : anchorOf sn o with
      | error y => simp only [ha, bind, Except.bind] at hp; cases hp; exact Or.inl ha
      | ok p =>
        simp only [ha, bind, Except.bind] at hp
        obtain ⟨rfl, hno⟩ := moveCell_error (fun c st hb => insertBefore_none.1 hb) hp
        exact lost_of hn ha hno
    rw [if_neg h3] at hp
    by_cases h4 : i = "after"
    · rw [if_pos h4] at hp
      subst h4
      refine ⟨⟨hn, hu, Or.inr ((inserts_iff (by decide)).2 hoi)⟩, ?_⟩
      cases ha : anchorOf sn o with
      | error y => simp only [ha, bind, Except.bind] at hp; cases hp; exact Or.inl ha
      | ok p =>
        simp only [ha, bind, Except.bind] at hp
        obtain ⟨rfl, hno⟩ := moveCell_error (fun c st hb => insertAfter_none.1 hb) hp
        exact lost_of hn ha hno
    rw [if_neg h4] at hp; cases hp

theorem moveCell_none {ins : (Cell → Bool) → Cell → List Cell → Option (List Cell)} {p : Cell → Bool}
    {h : Nat} {e : Elem} {st st' : List Cell} (hm : moveCell ins p h e st = .ok st') :
    ¬ ∀ c ∈ st, p c = false := by
  intro hno
  unfold moveCell at hm
  rw [List.find?_eq_none.2 (fun c hc => by simp [hno c hc])] at hm
  cases hm

theorem placeOld_at (hr : Relative sn o) {h : Nat} {e : Elem} {st st' : List Cell}
    (hp : placeOld sn (anchorOf sn o) o h e st = .ok st') : At sn o st := by
  obtain ⟨hn, hu, hi⟩ := hr
  unfold placeOld at hp
  simp only [hu, if_true] at hp
  rcases relative_insert hi with hi | hi <;> simp only [hi] at hp
  · rw [if_neg (by decide), if_neg (by decide), if_pos trivial] at hp
    obtain ⟨p, ha, hp⟩ := bind_ok.1 hp
    exact at_of hn ha (moveCell_none hp)
  · rw [if_neg (by decide), if_neg (by decide), if_neg (by decide), if_pos trivial] at hp
    obtain ⟨p, ha, hp⟩ := bind_ok.1 hp
    exact at_of hn ha (moveCell_none hp)

end
end Refuse
end NcDiff
