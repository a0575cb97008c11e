import Verif.Proof.CasesPath
import Verif.Proof.ServerLevel
/-!
# A server with choices: the nodes of other cases can be removed first
-/

namespace NcDiff.Compile

mutual
/-- What is left of `m` when the nodes of other cases than those of the edit-config are removed. -/
def settle (pl : List Place) (ex : QName → QName → Bool) : List Elem → List Elem → List Elem
  | [], m => m
  | o :: r, m => settle pl ex r (settleOne pl ex o m)
/-- See `settle`. -/
def settleOne (pl : List Place) (ex : QName → QName → Bool) : Elem → List Elem → List Elem
  | .mk t n a x ks, m =>
    match placeOf pl t with
    | none => m
    | some p =>
      if deletes (.mk t n a x ks) then m
      else (m.filter fun y => !ex t y.tag).map fun y =>
        if about p (.mk t n a x ks) y then y.setKids (settle (places p.1 p.2.kids) (rivals p) ks y.kids) else y
end

section
variable {pl : List Place} {ex : QName → QName → Bool} {p : Place} {o e : Elem} {l : List Elem}

/-- What becomes of one node. -/
def touch (p : Place) (o y : Elem) : Elem :=
  if about p o y then y.setKids (settle (places p.1 p.2.kids) (rivals p) o.kids y.kids) else y

theorem settleOne_eq (h : placeOf pl o.tag = some p) (m : List Elem) :
    settleOne pl ex o m = if deletes o then m else (m.filter fun y => !ex o.tag y.tag).map (touch p o) := by
  cases o with
  | mk t n a x ks =>
    rw [settleOne]
    rw [Elem.tag_mk] at h
    rw [h]
    rfl

theorem settleOne_none (h : placeOf pl o.tag = none) (m : List Elem) : settleOne pl ex o m = m := by
  cases o with
  | mk t n a x ks =>
    rw [settleOne]
    rw [Elem.tag_mk] at h
    rw [h]

theorem serveCase_eq (h : placeOf pl o.tag = some p) (l : List Elem) :
    serveCase pl ex o l = change p o (fun l' => serveCases (places p.1 p.2.kids) (rivals p) o.kids l') (others ex o l) := by
  cases o with
  | mk t n a x ks =>
    rw [serveCase]
    rw [Elem.tag_mk] at h
    rw [h]
    rfl

theorem serveCase_none (h : placeOf pl o.tag = none) (l : List Elem) : serveCase pl ex o l = none := by
  cases o with
  | mk t n a x ks =>
    rw [serveCase]
    rw [Elem.tag_mk] at h
    rw [h]

theorem serveOne_none (h : placeOf pl o.tag = none) (l : List Elem) : serveOne pl o l = none := by
  cases o with
  | mk t n a x ks =>
    rw [serveOne]
    rw [Elem.tag_mk] at h
    rw [h]

theorem touch_tag (p : Place) (o y : Elem) : (touch p o y).tag = y.tag := by
  unfold touch; split
  · rw [Elem.tag_setKids]
  · rfl

theorem touch_text (p : Place) (o y : Elem) : (touch p o y).text = y.text := by
  unfold touch; split
  · rw [Elem.text_setKids]
  · rfl

theorem touch_nsmap (p : Place) (o y : Elem) : (touch p o y).nsmap = y.nsmap := by
  unfold touch; split
  · rw [Elem.nsmap_setKids]
  · rfl

theorem touch_else {y : Elem} (h : about p o y = false) : touch p o y = y := by
  unfold touch; rw [h]; rfl

theorem touch_kids {y : Elem} (h : about p o y = true) :
    (touch p o y).kids = settle (places p.1 p.2.kids) (rivals p) o.kids y.kids := by
  unfold touch; rw [h, if_pos rfl, Elem.kids_setKids]

theorem tagged_map {φ : Elem → Elem} (h : ∀ y, (φ y).tag = y.tag) (q : QName) (l : List Elem) :
    tagged q (l.map φ) = (tagged q l).map φ := by
  unfold tagged
  rw [List.filter_map]
  congr 1
  refine List.filter_congr fun y _ => ?_
  simp only [Function.comp, h]

theorem tagged_filter {P : QName → Bool} {q : QName} (h : P q = true) (l : List Elem) :
    tagged q (l.filter fun y => P y.tag) = tagged q l := by
  unfold tagged
  rw [List.filter_filter]
  refine List.filter_congr fun y _ => ?_
  by_cases hy : y.tag = q
  · simp [hy, h]
  · simp [hy]

theorem tagged_filter_none {P : QName → Bool} {q : QName} (h : P q = false) (l : List Elem) :
    tagged q (l.filter fun y => P y.tag) = [] := by
  unfold tagged
  rw [List.filter_filter, List.filter_eq_nil_iff]
  intro y _ hy
  simp only [Bool.and_eq_true, decide_eq_true_eq] at hy
  rw [hy.1, h] at hy
  exact absurd hy.2 (by simp)

/-- The texts of nodes that nothing excludes stay. -/
theorem settle_texts {q : QName} (h : ∀ t, ex t q = false) : ∀ (D m : List Elem),
    (tagged q (settle pl ex D m)).map Elem.text = (tagged q m).map Elem.text
  | [], m => by rw [settle]
  | o :: r, m => by
    rw [settle, settle_texts h r]
    cases hp : placeOf pl o.tag with
    | none => rw [settleOne_none hp]
    | some p =>
      rw [settleOne_eq hp]
      split
      · rfl
      · rw [tagged_map (touch_tag p o), tagged_filter (P := fun t => !ex o.tag t) (by simp [h]), List.map_map]
        exact List.map_congr_left fun y _ => touch_text p o y

/-- The keys of the entries are in no case, and they are leaves. -/
def KeysFree (p : Place) : Prop :=
  ∀ q ∈ keyNames p, (∀ t, rivals p t q = false) ∧ ∃ p', placeOf (places p.1 p.2.kids) q = some p' ∧ p'.2.info.keyword = "leaf"

theorem touch_keys (hk : KeysFree p) {q : QName} (hq : q ∈ keyNames p) (o y : Elem) :
    (tagged q (touch p o y).kids).map Elem.text = (tagged q y.kids).map Elem.text := by
  cases h : about p o y with
  | true => rw [touch_kids h]; exact settle_texts (hk q hq).1 _ _
  | false => rw [touch_else h]

theorem identity_touch (hk : KeysFree p) (o y : Elem) : identity p (touch p o y) = identity p y := by
  unfold identity
  rw [touch_text]
  split
  · rfl
  · split
    · exact List.map_congr_left fun q hq => touch_keys hk hq o y
    · rfl

theorem about_touch (hk : KeysFree p) (o o' y : Elem) : about p o' (touch p o y) = about p o' y := by
  unfold about
  rw [touch_tag, identity_touch hk]

theorem anchored_touch (hk : KeysFree p) (o o' y : Elem) : anchored p o' (touch p o y) = anchored p o' y := by
  unfold anchored
  rw [touch_tag, touch_text]
  congr 1
  split
  · rfl
  · cases o'.get .key with
    | none => rfl
    | some v =>
      cases v with
      | str s => rfl
      | pred ps =>
        simp only
        refine decide_eq_decide.2 (and_congr_left' (forall₂_congr fun x _ => exists_congr fun q => and_congr_right fun hq => ?_))
        rw [touch_keys hk hq]

/-! ## One node -/

theorem change_eq (p : Place) (o : Elem) (ins : List Elem → Option (List Elem)) (l : List Elem) : change p o ins l =
    if opOf o = "delete" then if (l.find? (about p o)).isSome then some (l.filter fun y => !about p o y) else none
    else if opOf o = "remove" then some (l.filter fun y => !about p o y)
    else if opOf o = "merge" ∨ opOf o = "replace" ∨ (opOf o = "create" ∧ l.find? (about p o) = none) then
      if p.2.info.keyword = "leaf" ∨ p.2.info.keyword = "leaf-list" then put p o (.mk o.tag o.nsmap [] o.text []) l
      else (ins (startOf p o (l.find? (about p o)))).bind fun r => put p o (.mk o.tag o.nsmap [] none r) l
    else none := by
  unfold change
  simp only [operation_eq]
  refine if_congr Iff.rfl rfl (if_congr Iff.rfl rfl (if_congr Iff.rfl (if_congr Iff.rfl rfl ?_) rfl))
  cases l.find? (about p o) with
  | none =>
    simp only [startOf, keysOf]
    generalize ins _ = r
    cases r <;> rfl
  | some y =>
    simp only [startOf, keysOf]
    generalize ins _ = r
    cases r <;> rfl

theorem putBefore_map {P : Elem → Bool} {φ : Elem → Elem} (hP : ∀ y, P (φ y) = P y) (he : φ e = e) : ∀ l : List Elem,
    putBefore P e (l.map φ) = (putBefore P e l).map (List.map φ)
  | [] => rfl
  | y :: r => by
    rw [List.map_cons, putBefore, putBefore, hP, putBefore_map hP he r]
    split
    · simp [he]
    · cases putBefore P e r <;> rfl

theorem putAfter_map {P : Elem → Bool} {φ : Elem → Elem} (hP : ∀ y, P (φ y) = P y) (he : φ e = e) : ∀ l : List Elem,
    putAfter P e (l.map φ) = (putAfter P e l).map (List.map φ)
  | [] => rfl
  | y :: r => by
    rw [List.map_cons, putAfter, putAfter, hP, putAfter_map hP he r]
    split
    · simp [he]
    · cases putAfter P e r <;> rfl

theorem filter_map_comm {P : Elem → Bool} {φ : Elem → Elem} (hP : ∀ y, P (φ y) = P y) (l : List Elem) :
    (l.map φ).filter P = (l.filter P).map φ := by
  rw [List.filter_map]
  congr 1
  exact List.filter_congr fun y _ => hP y

theorem find_map_comm {P : Elem → Bool} {φ : Elem → Elem} (hP : ∀ y, P (φ y) = P y) (l : List Elem) :
    (l.map φ).find? P = (l.find? P).map φ := by
  rw [List.find?_map]
  congr 1
  congr 1
  funext y
  exact hP y

/-- What `put` does commutes with a change of other nodes. -/
theorem put_map {φ : Elem → Elem} (ha : ∀ y, about p o (φ y) = about p o y) (hn : ∀ y, anchored p o (φ y) = anchored p o y)
    (he : φ e = e) (l : List Elem) : put p o e (l.map φ) = (put p o e l).map (List.map φ) := by
  have hfil : (l.map φ).filter (fun y => !about p o y) = (l.filter fun y => !about p o y).map φ :=
    filter_map_comm (P := fun y => !about p o y) (fun y => by rw [ha y]) l
  unfold put
  simp only [hfil]
  split
  · rw [Option.map_some]
    congr 1
    have : (l.map φ).any (about p o) = l.any (about p o) := by
      rw [List.any_map]; congr 1; funext y; exact ha y
    rw [this]
    split
    · rw [List.map_map, List.map_map]
      refine List.map_congr_left fun y _ => ?_
      simp only [Function.comp, ha]
      split
      · rw [he]
      · rfl
    · simp [he]
  · split_ifs
    · simp [he]
    · simp [he]
    · exact putBefore_map hn he _
    · exact putAfter_map hn he _
    · rfl
  · rfl

theorem change_map {ins : List Elem → Option (List Elem)} {φ : Elem → Elem} (ha : ∀ y, about p o (φ y) = about p o y)
    (hn : ∀ y, anchored p o (φ y) = anchored p o y) (hf : ∀ y, about p o y = true → φ y = y)
    (hl : p.2.info.keyword = "leaf" ∨ p.2.info.keyword = "leaf-list" →
      φ (.mk o.tag o.nsmap [] o.text []) = .mk o.tag o.nsmap [] o.text [])
    (hr : opOf o ≠ "delete" → opOf o ≠ "remove" → ¬ (p.2.info.keyword = "leaf" ∨ p.2.info.keyword = "leaf-list") →
      ∀ r, ins (startOf p o (l.find? (about p o))) = some r →
        φ (.mk o.tag o.nsmap [] none r) = .mk o.tag o.nsmap [] none r) :
    change p o ins (l.map φ) = (change p o ins l).map (List.map φ) := by
  have hfind : (l.map φ).find? (about p o) = l.find? (about p o) := by
    rw [find_map_comm ha]
    cases h : l.find? (about p o) with
    | none => rfl
    | some y => rw [Option.map_some, hf y (List.find?_some h)]
  rw [change_eq, change_eq, hfind, filter_map_comm (P := fun y => !about p o y) (fun y => by rw [ha y])]
  split_ifs with h1 h2 h3 h4 h5
  · rfl
  · rfl
  · rfl
  · exact put_map ha hn (hl h5) l
  · cases h : ins (startOf p o (l.find? (about p o))) with
    | none => rfl
    | some r => exact put_map ha hn (hr h1 h3 h5 r h) l
  · rfl

theorem putBefore_filter {P Q : Elem → Bool} (hP : ∀ y, P y = true → Q y = true) (he : Q e = true) : ∀ l : List Elem,
    putBefore P e (l.filter Q) = (putBefore P e l).map (List.filter Q)
  | [] => rfl
  | y :: r => by
    have ih := putBefore_filter hP he r
    by_cases hy : Q y = true
    · rw [List.filter_cons, if_pos hy, putBefore, putBefore, ih]
      split
      · simp [he, hy]
      · cases putBefore P e r <;> simp [hy]
    · have : P y = false := by cases h : P y; rfl; exact absurd (hP y h) hy
      rw [List.filter_cons, if_neg hy, putBefore, this, ih]
      cases putBefore P e r <;> simp [hy]

theorem putAfter_filter {P Q : Elem → Bool} (hP : ∀ y, P y = true → Q y = true) (he : Q e = true) : ∀ l : List Elem,
    putAfter P e (l.filter Q) = (putAfter P e l).map (List.filter Q)
  | [] => rfl
  | y :: r => by
    have ih := putAfter_filter hP he r
    by_cases hy : Q y = true
    · rw [List.filter_cons, if_pos hy, putAfter, putAfter, ih]
      split
      · simp [he, hy]
      · cases putAfter P e r <;> simp [hy]
    · have : P y = false := by cases h : P y; rfl; exact absurd (hP y h) hy
      rw [List.filter_cons, if_neg hy, putAfter, this, ih]
      cases putAfter P e r <;> simp [hy]

theorem put_filter {Q : QName → Bool} (hQ : Q o.tag = true) (he : e.tag = o.tag) (l : List Elem) :
    put p o e (l.filter fun y => Q y.tag) = (put p o e l).map (List.filter fun y => Q y.tag) := by
  have hQe : Q e.tag = true := by rw [he]; exact hQ
  have ha : ∀ y, about p o y = true → Q y.tag = true := fun y hy => by rw [about_tag hy]; exact hQ
  have hn : ∀ y, anchored p o y = true → Q y.tag = true := fun y hy => by rw [anchored_tag hy]; exact hQ
  have hfil : (l.filter fun y => Q y.tag).filter (fun y => !about p o y) =
      (l.filter fun y => !about p o y).filter fun y => Q y.tag := by
    rw [List.filter_filter, List.filter_filter]
    exact List.filter_congr fun y _ => Bool.and_comm _ _
  unfold put
  simp only [hfil]
  split
  · rw [Option.map_some]
    congr 1
    have : (l.filter fun y => Q y.tag).any (about p o) = l.any (about p o) := by
      rw [List.any_filter]
      congr 1; funext y
      rw [Bool.eq_iff_iff, Bool.and_eq_true]
      exact ⟨fun h => h.2, fun h => ⟨ha y h, h⟩⟩
    rw [this]
    split
    · rw [List.filter_map]
      congr 1
      refine List.filter_congr fun y _ => ?_
      simp only [Function.comp]
      split
      · rename_i h; rw [ha y h, hQe]
      · rfl
    · simp [hQe]
  · split_ifs
    · simp [hQe]
    · simp [hQe]
    · exact putBefore_filter hn hQe _
    · exact putAfter_filter hn hQe _
    · rfl
  · rfl

theorem find_filter {Q : QName → Bool} (hQ : Q o.tag = true) (l : List Elem) :
    (l.filter fun y => Q y.tag).find? (about p o) = l.find? (about p o) := by
  induction l with
  | nil => rfl
  | cons y r ih =>
    rw [List.filter_cons]
    split
    · rw [List.find?_cons, List.find?_cons, ih]
    · rename_i h
      rw [List.find?_cons_of_neg, ih]
      intro hy
      exact h (by rw [about_tag hy]; exact hQ)

theorem change_filter {ins : List Elem → Option (List Elem)} {Q : QName → Bool} (hQ : Q o.tag = true) (l : List Elem) :
    change p o ins (l.filter fun y => Q y.tag) = (change p o ins l).map (List.filter fun y => Q y.tag) := by
  have hfil : (l.filter fun y => Q y.tag).filter (fun y => !about p o y) =
      (l.filter fun y => !about p o y).filter fun y => Q y.tag := by
    rw [List.filter_filter, List.filter_filter]
    exact List.filter_congr fun y _ => Bool.and_comm _ _
  rw [change_eq, change_eq, find_filter hQ, hfil]
  split_ifs with h1 h2 h3 h4 h5
  · rfl
  · rfl
  · rfl
  · exact put_filter hQ (Elem.tag_mk ..) l
  · cases ins (startOf p o (l.find? (about p o))) with
    | none => rfl
    | some r => exact put_filter hQ (Elem.tag_mk ..) l
  · rfl

/-! ## The keys of an entry stay -/

theorem change_only {ins : List Elem → Option (List Elem)} {l' : List Elem} (h : change p o ins l = some l') :
    change p o ins (tagged o.tag l) = some (tagged o.tag l') ∧ OnlyTag o.tag l l' := by
  have h1 : change p o ins (tagged o.tag l) = some (tagged o.tag l') := by
    have := change_filter (p := p) (o := o) (ins := ins) (Q := fun t => decide (t = o.tag)) (by simp) l
    rw [h] at this
    exact this
  obtain ⟨l2, h2, _, h3⟩ := change_tagged h1
  rw [h] at h2
  cases h2
  exact ⟨h1, h3⟩

theorem serve_texts {q : QName} {v : Option String} {p' : Place} (hp : placeOf pl q = some p') (hl : p'.2.info.keyword = "leaf") :
    ∀ (r l l' : List Elem), (∀ c ∈ r, c.tag = q → deletes c = false ∧ c.text = v) →
      (tagged q l).map Elem.text = [v] → serve pl r l = some l' → (tagged q l').map Elem.text = [v]
  | [], l, l', _, h, hs => by
    rw [serve] at hs
    cases hs
    exact h
  | c :: r, l, l', hr, h, hs => by
    rw [serve] at hs
    cases hc : serveOne pl c l with
    | none => rw [hc] at hs; exact absurd hs (by simp)
    | some l1 =>
      rw [hc] at hs
      refine serve_texts hp hl r l1 l' (fun x hx => hr x (List.mem_cons_of_mem _ hx)) ?_ hs
      cases hpc : placeOf pl c.tag with
      | none => rw [serveOne_none hpc] at hc; exact absurd hc (by simp)
      | some pc =>
        rw [serveOne_eq hpc] at hc
        obtain ⟨h1, h2⟩ := change_only hc
        by_cases hq : c.tag = q
        · subst hq
          rw [hp] at hpc
          cases hpc
          obtain ⟨hd, hv⟩ := hr c List.mem_cons_self rfl
          obtain ⟨e, he, hev⟩ : ∃ e, tagged c.tag l = [e] ∧ e.text = v := by
            cases ht : tagged c.tag l with
            | nil => rw [ht] at h; exact absurd h (by simp)
            | cons a b =>
              rw [ht] at h
              rw [List.map_cons, List.cons.injEq, List.map_eq_nil_iff] at h
              exact ⟨a, by rw [h.2], h.1⟩
          have het : e.tag = c.tag := (List.mem_filter.1 (show e ∈ tagged c.tag l by rw [he]; exact List.mem_singleton_self _)).2
            |> of_decide_eq_true
          have hid : about p' c e = true := by
            unfold about identity
            simp [het, hl]
          have hbu : byUser p' = false := by
            unfold byUser
            simp [hl]
          have hput : put p' c (.mk c.tag c.nsmap [] c.text []) [e] = some [.mk c.tag c.nsmap [] c.text []] := by
            unfold put
            simp [hbu, hid]
          have hd' : ¬ (opOf c = "delete" ∨ opOf c = "remove") := by
            unfold deletes at hd
            rw [operation_eq] at hd
            exact of_decide_eq_false hd
          rw [he, change_eq, if_neg (fun h => hd' (.inl h)), if_neg (fun h => hd' (.inr h)),
            if_pos (show p'.2.info.keyword = "leaf" ∨ p'.2.info.keyword = "leaf-list" from .inl hl), hput] at h1
          split at h1
          · rw [← Option.some.inj h1, List.map_cons, List.map_nil, Elem.text_mk, hv]
          · exact absurd h1 (by simp)
        · rw [h2 q (fun h => hq h.symm)]
          exact h

/-- What an entry of an edit-config has of its keys. -/
structure Entry (p : Place) (o : Elem) : Prop where
  one : ∀ q ∈ keyNames p, ∃ c, tagged q o.kids = [c]
  stays : ∀ c ∈ o.kids, c.tag ∈ keyNames p → deletes c = false

theorem identity_serve (hk : KeysFree p) (he : p.2.info.keyword = "list" → Entry p o)
    (hn : ¬ (p.2.info.keyword = "leaf" ∨ p.2.info.keyword = "leaf-list")) {r : List Elem}
    (h : serve (places p.1 p.2.kids) o.kids (startOf p o (l.find? (about p o))) = some r) :
    identity p (.mk o.tag o.nsmap [] none r) = identity p o := by
  unfold identity
  rw [if_neg (fun h => hn (.inr h)), if_neg (fun h => hn (.inr h))]
  split
  · rename_i hl
    refine List.map_congr_left fun q hq => ?_
    obtain ⟨c, hc⟩ := (he hl).one q hq
    obtain ⟨p', hp', hleaf⟩ := (hk q hq).2
    rw [Elem.kids_mk, hc]
    have hcm : c ∈ o.kids ∧ c.tag = q := by
      have := List.mem_filter.1 (show c ∈ tagged q o.kids by rw [hc]; exact List.mem_singleton_self _)
      exact ⟨this.1, of_decide_eq_true this.2⟩
    have hkeys : (tagged q (keysOf p o)).map Elem.text = [c.text] := by
      unfold keysOf
      rw [tagged_map (φ := fun c => .mk c.tag c.nsmap [] c.text []) (fun y => Elem.tag_mk ..)]
      have : tagged q (o.kids.filter fun c => decide (c.tag ∈ keyNames p)) = [c] := by
        rw [← hc]
        exact tagged_filter (P := fun t => decide (t ∈ keyNames p)) (decide_eq_true hq) o.kids
      rw [this]
      rfl
    refine serve_texts hp' hleaf o.kids _ r ?_ ?_ h
    · intro x hx hxq
      refine ⟨(he hl).stays x hx (by rw [hxq]; exact hq), ?_⟩
      have : x ∈ tagged q o.kids := List.mem_filter.2 ⟨hx, decide_eq_true hxq⟩
      rw [hc, List.mem_singleton] at this
      rw [this]
    · cases hf : l.find? (about p o) with
      | none => simp only [startOf]; rw [if_pos hl]; exact hkeys
      | some y =>
        simp only [startOf]
        split
        · have ha : about p o y = true := List.find?_some hf
          unfold about at ha
          have hi := (of_decide_eq_true ha).2
          unfold identity at hi
          rw [if_neg (fun h => hn (.inr h)), if_neg (fun h => hn (.inr h)), if_pos hl, if_pos hl] at hi
          have := List.map_inj_left.1 hi q hq
          rw [this, hc]
          rfl
        · first | exact hkeys | (rw [if_pos hl]; exact hkeys)
  · rfl

/-! ## Other nodes first -/

theorem settle_nil : ∀ D : List Elem, settle pl ex D [] = []
  | [] => by rw [settle]
  | o :: r => by
    rw [settle]
    have : settleOne pl ex o [] = [] := by
      cases hp : placeOf pl o.tag with
      | none => rw [settleOne_none hp]
      | some p => rw [settleOne_eq hp]; split <;> rfl
    rw [this, settle_nil r]

theorem setKids_self {y : Elem} (h : y.kids = []) : y.setKids [] = y := by
  cases y with
  | mk t n a x ks =>
    rw [Elem.kids_mk] at h
    rw [h]
    rfl

theorem settle_flat : ∀ (D l : List Elem), (∀ k ∈ l, k.kids = [] ∧ ∀ t, ex t k.tag = false) → settle pl ex D l = l
  | [], l, _ => by rw [settle]
  | o :: r, l, h => by
    rw [settle]
    have : settleOne pl ex o l = l := by
      cases hp : placeOf pl o.tag with
      | none => rw [settleOne_none hp]
      | some p =>
        rw [settleOne_eq hp]
        split
        · rfl
        · rw [List.filter_eq_self.2 (fun k hk => by rw [(h k hk).2]; rfl)]
          conv => rhs; rw [← List.map_id l]
          refine List.map_congr_left fun k hk => ?_
          unfold touch
          split
          · rw [(h k hk).1, settle_nil, setKids_self (h k hk).1]; rfl
          · rfl
    rw [this, settle_flat r l h]

theorem put_touch (hk : KeysFree p) (l : List Elem) : put p o e (l.map (touch p o)) = put p o e l := by
  have hfil : (l.map (touch p o)).filter (fun y => !about p o y) = l.filter fun y => !about p o y := by
    rw [filter_map_comm (P := fun y => !about p o y) (fun y => by rw [about_touch hk])]
    conv => rhs; rw [← List.map_id (l.filter _)]
    refine List.map_congr_left fun y hy => ?_
    have := (List.mem_filter.1 hy).2
    exact touch_else (by simpa using this)
  unfold put
  simp only [hfil]
  have : (l.map (touch p o)).any (about p o) = l.any (about p o) := by
    rw [List.any_map]; congr 1; funext y; exact about_touch hk o o y
  rw [this]
  have hm : (l.map (touch p o)).map (fun y => if about p o y then e else y) = l.map fun y => if about p o y then e else y := by
    rw [List.map_map]
    refine List.map_congr_left fun y _ => ?_
    simp only [Function.comp, about_touch hk]
    split
    · rfl
    · rename_i h
      exact touch_else (by simpa using h)
  rw [hm]
  split
  · rename_i h
    split
    · rfl
    · rename_i hna
      have : l.map (touch p o) = l := by
        conv => rhs; rw [← List.map_id l]
        refine List.map_congr_left fun y hy => touch_else ?_
        simp only [Bool.not_eq_true, List.any_eq_false] at hna
        exact hna y hy
      rw [this]
  · rfl
  · rfl

theorem serveOne_settleOne (hp : placeOf pl o.tag = some p) (hk : KeysFree p)
    (ih : deletes o = false → ∀ m, serveCases (places p.1 p.2.kids) (rivals p) o.kids m =
      serve (places p.1 p.2.kids) o.kids (settle (places p.1 p.2.kids) (rivals p) o.kids m)) (m : List Elem) :
    serveOne pl o (settleOne pl ex o m) = serveCase pl ex o m := by
  rw [serveOne_eq hp, serveCase_eq hp, settleOne_eq hp]
  unfold others
  split
  · rename_i hd
    unfold deletes at hd
    rw [operation_eq] at hd
    have hd' := of_decide_eq_true hd
    rw [change_eq, change_eq]
    rcases hd' with hd' | hd'
    · rw [if_pos hd', if_pos hd']
    · have : opOf o ≠ "delete" := by rw [hd']; decide
      rw [if_neg this, if_neg this, if_pos hd', if_pos hd']
  · rename_i hd
    have ih := ih (by simpa using hd)
    generalize (m.filter fun y => !ex o.tag y.tag) = l
    unfold deletes at hd
    rw [operation_eq] at hd
    have hd' : ¬ (opOf o = "delete" ∨ opOf o = "remove") := fun h => hd (decide_eq_true h)
    rw [change_eq, change_eq, if_neg (fun h => hd' (.inl h)), if_neg (fun h => hd' (.inl h)),
      if_neg (fun h => hd' (.inr h)), if_neg (fun h => hd' (.inr h)), find_map_comm (fun y => about_touch hk o o y)]
    have hst : startOf p o ((l.find? (about p o)).map (touch p o)) =
        settle (places p.1 p.2.kids) (rivals p) o.kids (startOf p o (l.find? (about p o))) := by
      have hkeys : settle (places p.1 p.2.kids) (rivals p) o.kids (keysOf p o) = keysOf p o := by
        refine settle_flat _ _ fun k hk' => ?_
        unfold keysOf at hk'
        obtain ⟨c, hc, rfl⟩ := List.mem_map.1 hk'
        have := of_decide_eq_true (List.mem_filter.1 hc).2
        exact ⟨Elem.kids_mk .., fun t => by rw [Elem.tag_mk]; exact (hk c.tag this).1 t⟩
      cases hf : l.find? (about p o) with
      | none =>
        simp only [startOf, Option.map_none]
        split
        · exact hkeys.symm
        · exact (settle_nil _).symm
      | some y =>
        simp only [startOf, Option.map_some]
        split
        · exact touch_kids (List.find?_some hf)
        · split
          · exact hkeys.symm
          · exact (settle_nil _).symm
    simp only [hst, put_touch hk, Option.map_eq_none_iff, ih]

theorem serveOne_settle (hp : placeOf pl o.tag = some p) (hk : KeysFree p) (he : deletes o = false → p.2.info.keyword = "list" → Entry p o)
    : ∀ (r l : List Elem), (∀ o2 ∈ r, ex o2.tag o.tag = false) → (∀ o2 ∈ r, about p o o2 = false) →
    serveOne pl o (settle pl ex r l) = (serveOne pl o l).map (settle pl ex r)
  | [], l, _, _ => by
    have : settle pl ex [] = id := by funext m; rw [settle]; rfl
    rw [this, Option.map_id]; rfl
  | o2 :: r, l, h1, h2 => by
    have hc : settle pl ex (o2 :: r) = settle pl ex r ∘ settleOne pl ex o2 := by funext m; rw [settle]; rfl
    rw [settle, serveOne_settle hp hk he r _ (fun x hx => h1 x (List.mem_cons_of_mem _ hx))
      (fun x hx => h2 x (List.mem_cons_of_mem _ hx)), hc, ← Option.map_map]
    congr 1
    cases hp2 : placeOf pl o2.tag with
    | none =>
      have : settleOne pl ex o2 = id := by funext m; rw [settleOne_none hp2]; rfl
      rw [this, Option.map_id]; rfl
    | some p2 =>
      cases hd : deletes o2 with
      | true =>
        have : settleOne pl ex o2 = id := by funext m; rw [settleOne_eq hp2, if_pos hd]; rfl
        rw [this, Option.map_id]; rfl
      | false =>
        have : settleOne pl ex o2 = List.map (touch p2 o2) ∘ List.filter (fun y => !ex o2.tag y.tag) := by
          funext m; rw [settleOne_eq hp2, if_neg (by rw [hd]; simp)]; rfl
        rw [this, Function.comp, serveOne_eq hp, serveOne_eq hp, ← Option.map_map]
        have hex : (fun t => !ex o2.tag t) o.tag = true := by
          show (!ex o2.tag o.tag) = true
          rw [h1 o2 List.mem_cons_self]; rfl
        rw [← change_filter (p := p) (o := o) (Q := fun t => !ex o2.tag t) hex]
        have hno : ∀ y, y.tag = o.tag → identity p y = identity p o → touch p2 o2 y = y := by
          intro y hy hi
          refine touch_else ?_
          rw [← Bool.not_eq_true]
          intro ha
          have ht : o2.tag = o.tag := by rw [← about_tag ha, hy]
          have hpp : p2 = p := by rw [ht, hp] at hp2; exact (Option.some.inj hp2).symm
          subst hpp
          have h3 := h2 o2 List.mem_cons_self
          unfold about at ha h3
          exact of_decide_eq_false h3 ⟨ht, (of_decide_eq_true ha).2.symm.trans hi⟩
        have hab : ∀ y, about p o (touch p2 o2 y) = about p o y := by
          intro y
          by_cases ht : o2.tag = o.tag
          · have hpp : p2 = p := by rw [ht, hp] at hp2; exact (Option.some.inj hp2).symm
            subst hpp
            exact about_touch hk o2 o y
          · cases h : about p2 o2 y with
            | false => rw [touch_else h]
            | true =>
              have hy := about_tag h
              have hy' : y.tag ≠ o.tag := by rw [hy]; exact ht
              unfold about
              rw [touch_tag]
              simp [hy']
        have han : ∀ y, anchored p o (touch p2 o2 y) = anchored p o y := by
          intro y
          by_cases ht : o2.tag = o.tag
          · have hpp : p2 = p := by rw [ht, hp] at hp2; exact (Option.some.inj hp2).symm
            subst hpp
            exact anchored_touch hk o2 o y
          · cases h : about p2 o2 y with
            | false => rw [touch_else h]
            | true =>
              have hy := about_tag h
              have hy' : y.tag ≠ o.tag := by rw [hy]; exact ht
              unfold anchored
              rw [touch_tag]
              simp [hy']
        refine change_map hab han (fun y hy => ?_) (fun hl => ?_) (fun d1 d2 hn r hr => ?_)
        · have := of_decide_eq_true (show decide _ = true from hy)
          exact hno y this.1 this.2
        · refine hno _ (Elem.tag_mk ..) ?_
          unfold identity
          rcases hl with hl | hl
          · simp [hl]
          · simp [hl, Elem.text_mk]
        · refine hno _ (Elem.tag_mk ..) (identity_serve hk (he ?_) hn hr)
          unfold deletes
          rw [operation_eq]
          exact decide_eq_false fun h => h.elim d1 d2

/-- What is asked of an edit-config so that the nodes of other cases can be removed first. -/
inductive Sound : (QName → QName → Bool) → List Place → List Elem → Prop
  | mk {ex : QName → QName → Bool} {pl : List Place} {D : List Elem}
      (apart : ∀ a ∈ D, ∀ b ∈ D, ex a.tag b.tag = false)
      (known : ∀ o ∈ D, ∃ p, placeOf pl o.tag = some p)
      (once : D.Pairwise fun o o' => ∀ p, placeOf pl o.tag = some p → about p o o' = false)
      (keyed : ∀ o ∈ D, ∀ p, placeOf pl o.tag = some p → KeysFree p)
      (entry : ∀ o ∈ D, ∀ p, placeOf pl o.tag = some p → deletes o = false → p.2.info.keyword = "list" → Entry p o)
      (sub : ∀ o ∈ D, ∀ p, placeOf pl o.tag = some p → deletes o = false → Sound (rivals p) (places p.1 p.2.kids) o.kids) :
      Sound ex pl D

theorem sim_list : ∀ (r m : List Elem),
    (∀ a ∈ r, ∀ b ∈ r, ex a.tag b.tag = false) →
    (r.Pairwise fun o o' => ∀ p, placeOf pl o.tag = some p → about p o o' = false) →
    (∀ o ∈ r, ∀ p, placeOf pl o.tag = some p → KeysFree p ∧ (deletes o = false → p.2.info.keyword = "list" → Entry p o) ∧
      (deletes o = false → ∀ m, serveCases (places p.1 p.2.kids) (rivals p) o.kids m =
        serve (places p.1 p.2.kids) o.kids (settle (places p.1 p.2.kids) (rivals p) o.kids m))) →
    serveCases pl ex r m = serve pl r (settle pl ex r m)
  | [], m, _, _, _ => by rw [serveCases, serve, settle]
  | o :: r, m, h1, h2, h3 => by
    have ih := fun m => sim_list r m (fun a ha b hb => h1 a (List.mem_cons_of_mem _ ha) b (List.mem_cons_of_mem _ hb))
      (List.pairwise_cons.1 h2).2 (fun x hx => h3 x (List.mem_cons_of_mem _ hx))
    rw [serveCases, serve, settle]
    cases hp : placeOf pl o.tag with
    | none => rw [serveCase_none hp, serveOne_none hp]
    | some p =>
      obtain ⟨hk, he, hi⟩ := h3 o List.mem_cons_self p hp
      rw [serveOne_settle hp hk he r _ (fun x hx => h1 x (List.mem_cons_of_mem _ hx) o List.mem_cons_self)
        (fun x hx => (List.pairwise_cons.1 h2).1 x hx p hp), serveOne_settleOne hp hk hi]
      cases serveCase pl ex o m with
      | none => rfl
      | some l => exact ih l

/-- The server with choices does what the other one does after the removal of the nodes of other cases. -/
theorem serveCases_eq {D : List Elem} (h : Sound ex pl D) : ∀ m, serveCases pl ex D m = serve pl D (settle pl ex D m) := by
  induction h with
  | mk apart known once keyed entry sub ih =>
    intro m
    refine sim_list _ m apart once fun o ho p hp => ⟨keyed o ho p hp, entry o ho p hp, ?_⟩
    exact ih o ho p hp


/-! ## All nodes at once -/

/-- `o` is about `y`. -/
def aboutIn (pl : List Place) (o y : Elem) : Bool :=
  match placeOf pl o.tag with
  | some p => about p o y
  | none => false

/-- What becomes of a node that stays. -/
def touched (pl : List Place) (D : List Elem) (y : Elem) : Elem :=
  match D.find? fun o => aboutIn pl o y with
  | none => y
  | some o =>
    match placeOf pl o.tag with
    | none => y
    | some p => if deletes o then y else y.setKids (settle (places p.1 p.2.kids) (rivals p) o.kids y.kids)

theorem touched_none {D : List Elem} {y : Elem} (h : ∀ o ∈ D, aboutIn pl o y = false) : touched pl D y = y := by
  unfold touched
  have : D.find? (fun o => aboutIn pl o y) = none := List.find?_eq_none.2 fun o ho => by rw [h o ho]; simp
  rw [this]

theorem about_same (hp : placeOf pl o.tag = some p) {o' y : Elem} (h : about p o y = true) (h' : aboutIn pl o' y = true) :
    about p o o' = true := by
  unfold aboutIn at h'
  cases hp' : placeOf pl o'.tag with
  | none => rw [hp'] at h'; exact absurd h' (by simp)
  | some p' =>
    rw [hp'] at h'
    have ht : o'.tag = o.tag := (about_tag h').symm.trans (about_tag h)
    rw [ht, hp] at hp'
    cases hp'
    unfold about at h h' ⊢
    exact decide_eq_true ⟨ht, (of_decide_eq_true h').2.symm.trans (of_decide_eq_true h).2⟩

theorem settle_eq : ∀ (D m : List Elem),
    (D.Pairwise fun o o' => ∀ p, placeOf pl o.tag = some p → about p o o' = false) →
    (∀ o ∈ D, ∃ p, placeOf pl o.tag = some p ∧ KeysFree p) →
    settle pl ex D m = (m.filter fun y => D.all fun o => deletes o || !ex o.tag y.tag).map (touched pl D)
  | [], m, _, _ => by
    rw [settle]
    have h1 : (m.filter fun y => ([] : List Elem).all fun o => deletes o || !ex o.tag y.tag) = m :=
      List.filter_eq_self.2 fun _ _ => rfl
    rw [h1]
    conv => lhs; rw [← List.map_id m]
    exact List.map_congr_left fun y _ => (touched_none (by simp)).symm
  | o :: r, m, h1, h2 => by
    obtain ⟨p, hp, hk⟩ := h2 o List.mem_cons_self
    obtain ⟨h3, h4⟩ := List.pairwise_cons.1 h1
    rw [settle, settle_eq r _ h4 (fun x hx => h2 x (List.mem_cons_of_mem _ hx)), settleOne_eq hp]
    have hfind : ∀ y, about p o y = true → (∀ o' ∈ r, aboutIn pl o' y = false) := by
      intro y hy o' ho'
      rw [← Bool.not_eq_true]
      intro h
      have := about_same hp hy h
      rw [h3 o' ho' p hp] at this
      cases this
    have hno : ∀ y, about p o y = false → touched pl (o :: r) y = touched pl r y := by
      intro y hy
      unfold touched
      rw [List.find?_cons_of_neg]
      unfold aboutIn
      rw [hp]
      simp [hy]
    have hyes : ∀ y, about p o y = true → touched pl (o :: r) y =
        if deletes o then y else y.setKids (settle (places p.1 p.2.kids) (rivals p) o.kids y.kids) := by
      intro y hy
      unfold touched
      rw [List.find?_cons_of_pos]
      · simp only [hp]
      · unfold aboutIn
        rw [hp]
        exact hy
    cases hd : deletes o with
    | true =>
      rw [if_pos rfl]
      have : (m.filter fun y => (o :: r).all fun o => deletes o || !ex o.tag y.tag) =
          m.filter fun y => r.all fun o => deletes o || !ex o.tag y.tag :=
        List.filter_congr fun y _ => by rw [List.all_cons, hd]; simp
      rw [this]
      refine List.map_congr_left fun y _ => ?_
      cases hy : about p o y with
      | true => rw [hyes y hy, hd, if_pos rfl, touched_none (hfind y hy)]
      | false => rw [hno y hy]
    | false =>
      rw [if_neg (by simp)]
      rw [filter_map_comm (P := fun y => r.all fun o => deletes o || !ex o.tag y.tag) (fun y => by simp only [touch_tag]),
        List.filter_filter, List.map_map]
      have : (m.filter fun y => (o :: r).all fun o => deletes o || !ex o.tag y.tag) =
          m.filter fun y => (r.all fun o => deletes o || !ex o.tag y.tag) && !ex o.tag y.tag :=
        List.filter_congr fun y _ => by rw [List.all_cons, hd, Bool.false_or, Bool.and_comm]
      rw [this]
      refine List.map_congr_left fun y _ => ?_
      simp only [Function.comp]
      cases hy : about p o y with
      | true =>
        rw [hyes y hy, hd, if_neg (by simp), touched_none]
        · unfold touch
          rw [hy, if_pos rfl]
        · intro o' ho'
          exact hfind (touch p o y) (by rw [about_touch hk]; exact hy) o' ho'
      | false => rw [hno y hy, touch_else hy]

end
end NcDiff.Compile
