import Verif.Proof.ServeFlat
/-!
# The server: the order of the nodes of an edit-config

Without order by the user it does not matter.
-/

namespace NcDiff.Compile

section
variable {d : Device} {rd : Bool} {sc : Scope} {pl : List Place} {ex : QName → QName → Bool} {p : Place} {o o' y y' : Elem}
  {l : List Elem}

/-- What is known about a level. -/
structure Ground (d : Device) (rd : Bool) (sc : Scope) (pl : List Place) (ex : QName → QName → Bool) : Prop where
  floor : Floor d rd sc pl ex
  free : ∀ p ∈ pl, Everywhere FreeOrder p.2

theorem Ground.below (h : Ground d rd sc pl ex) {t : QName} (hp : placeOf pl t = some p) :
    ∃ sc', Ground d rd sc' (places p.1 p.2.kids) (rivals p) := by
  obtain ⟨f, _, hF, _⟩ := h.floor.known hp
  obtain ⟨p1, _, _⟩ := placeOf_some hp
  exact ⟨_, hF, fun p' hp' => (everywhere_places (h.free p p1) p' hp').2⟩

theorem Ground.keysFree (h : Ground d rd sc pl ex) {t : QName} (hp : placeOf pl t = some p) : KeysFree p := by
  obtain ⟨_, _, _, hk⟩ := h.floor.known hp
  exact hk

theorem Ground.notByUser (h : Ground d rd sc pl ex) {t : QName} (hp : placeOf pl t = some p) : byUser p = false := by
  obtain ⟨p1, _, _⟩ := placeOf_some hp
  rw [← Bool.not_eq_true, byUser_iff]
  exact fun hu => (h.free p p1).here' hu.2

/-! ## Nodes alike -/

theorem Like.get (h : Like o o') (n : AName) : o.get n = o'.get n := by
  unfold Elem.get
  rw [h.attrs]

theorem Like.opOf (h : Like o o') : opOf o = NcDiff.opOf o' := by
  unfold NcDiff.opOf
  rw [h.get]

theorem Like.deletes (h : Like o o') : deletes o = Compile.deletes o' := by
  unfold Compile.deletes
  rw [operation_eq, operation_eq, h.opOf]

theorem identity_like (h : Like y y') (hk : p.2.info.keyword = "list" → ∀ q ∈ keyNames p, (tagged q y.kids).length ≤ 1) :
    identity p y = identity p y' := by
  unfold identity
  rw [h.text]
  split
  · rfl
  · split
    · rename_i hl
      refine List.map_congr_left fun q hq => ?_
      rcases (h.kids.tagged q).few (hk hl q hq) with ⟨h1, h2⟩ | ⟨a, b, h1, h2, h3⟩
      · rw [h1, h2]
      · rw [h1, h2, List.map_cons, List.map_cons, h3.text]
    · rfl

theorem pairwise_forall₂ {L : Elem → Elem → Prop} {R R' : Elem → Elem → Prop} : ∀ {u v : List Elem}, u.Pairwise R →
    List.Forall₂ L u v → (∀ a ∈ u, ∀ b ∈ u, ∀ a' b', L a a' → L b b' → R a b → R' a' b') → v.Pairwise R'
  | _, _, _, .nil, _ => .nil
  | a :: u, a' :: v, hu, .cons h t, hR => by
    obtain ⟨h1, h2⟩ := List.pairwise_cons.1 hu
    refine List.pairwise_cons.2 ⟨fun b' hb' => ?_, pairwise_forall₂ h2 t fun x hx z hz => hR x (by simp [hx]) z (by simp [hz])⟩
    obtain ⟨b, hb, hbb⟩ : ∃ b ∈ u, L b b' := by
      clear h1 h2 hR hu
      induction t with
      | nil => cases hb'
      | cons h _ ih =>
        rcases List.mem_cons.1 hb' with rfl | hb'
        · exact ⟨_, by simp, h⟩
        · obtain ⟨b, hb, hbb⟩ := ih hb'
          exact ⟨b, by simp [hb], hbb⟩
    exact hR a (by simp) b (by simp [hb]) a' b' h hbb (h1 b hb)

theorem Apart.same {m m' : List Elem} (h : Apart pl m) (hs : SameNodes m m')
    (hk : ∀ y ∈ m, ∀ p, placeOf pl y.tag = some p → p.2.info.keyword = "list" → ∀ q ∈ keyNames p, (tagged q y.kids).length ≤ 1) :
    Apart pl m' := by
  obtain ⟨u, hu, hf⟩ := hs.split
  refine pairwise_forall₂ (h.perm hu) hf fun a ha b hb a' b' hla hlb hab p hp => ?_
  rw [← Bool.not_eq_true]
  intro hc
  obtain ⟨h1, h2⟩ := about_both.1 hc
  have hpa : placeOf pl a.tag = some p := by rw [hla.tag]; exact hp
  have hpb : placeOf pl b.tag = some p := by rw [hlb.tag, h1]; exact hp
  have := hab p hpa
  rw [← Bool.not_eq_true, about_both] at this
  refine this ⟨by rw [hla.tag, hlb.tag, h1], ?_⟩
  rw [identity_like hla (hk a (hu.mem_iff.2 ha) p hpa), identity_like hlb (hk b (hu.mem_iff.2 hb) p hpb), h2]

/-! ## What the server has -/

/-- No two siblings are the same instance, at any depth. -/
inductive Lone : List Place → List Elem → Prop
  | mk {pl : List Place} {m : List Elem} (here : Apart pl m)
      (sub : ∀ y ∈ m, ∀ p, placeOf pl y.tag = some p → p.2.info.keyword = "container" ∨ p.2.info.keyword = "list" →
        Lone (places p.1 p.2.kids) y.kids) : Lone pl m

theorem Apart.single {m : List Elem} (h : Apart pl m) {q : QName} (hp : placeOf pl q = some p) (hl : p.2.info.keyword = "leaf") :
    (tagged q m).length ≤ 1 := by
  match hf : tagged q m with
  | [] => simp
  | [x] => simp
  | x :: z :: r =>
    have hs : (x :: z :: r).Sublist m := by rw [← hf]; exact List.filter_sublist
    have h1 := (List.pairwise_cons.1 (h.sublist hs)).1 z (by simp)
    have hx : x.tag = q := (mem_tagged.1 (show x ∈ tagged q m by rw [hf]; simp)).2
    have hz : z.tag = q := (mem_tagged.1 (show z ∈ tagged q m by rw [hf]; simp)).2
    have := h1 p (by rw [hx]; exact hp)
    rw [← Bool.not_eq_true, about_both] at this
    exact absurd ⟨by rw [hx, hz], by
      rw [identity_nil (by rw [hl]; decide) (by rw [hl]; decide), identity_nil (by rw [hl]; decide) (by rw [hl]; decide)]⟩ this

theorem Lone.keys {m : List Elem} (h : Lone (places p.1 p.2.kids) m) (hk : KeysFree p) :
    ∀ q ∈ keyNames p, (tagged q m).length ≤ 1 := by
  intro q hq
  obtain ⟨_, p', hp', hl⟩ := hk q hq
  cases h with
  | mk here _ => exact here.single hp' hl

theorem Lone.same {pl : List Place} {m : List Elem} (h : Lone pl m) : ∀ {sc : Scope} {ex : QName → QName → Bool} {m' : List Elem},
    Ground d rd sc pl ex → SameNodes m m' → Lone pl m' := by
  induction h with
  | @mk pl m here sub ih =>
    intro sc ex m' hG hs
    refine ⟨here.same hs fun y hy p hp hl => (sub y hy p hp (.inr hl)).keys (hG.keysFree hp), fun y' hy' p hp hn => ?_⟩
    obtain ⟨y, hy, hl⟩ := hs.mem hy'
    have hp' : placeOf pl y.tag = some p := by rw [hl.tag]; exact hp
    obtain ⟨sc', hG'⟩ := hG.below hp'
    exact ih y hy p hp' hn hG' hl.kids

theorem apart_of_once {m : List Elem} (h : ∀ q p, placeOf pl q = some p → ((tagged q m).map (identity p)).Nodup) : Apart pl m := by
  induction m with
  | nil => exact .nil
  | cons y r ih =>
    refine List.pairwise_cons.2 ⟨fun y' hy' p hp => ?_, ih fun q p hp => ?_⟩
    · rw [← Bool.not_eq_true, about_both]
      rintro ⟨h1, h2⟩
      have := h y.tag p hp
      have e : tagged y.tag (y :: r) = y :: tagged y.tag r := List.filter_cons_of_pos (by simp)
      rw [e, List.map_cons, List.nodup_cons] at this
      exact this.1 (List.mem_map.2 ⟨y', mem_tagged.2 ⟨hy', h1⟩, h2⟩)
    · have := h q p hp
      have hs : (tagged q r).Sublist (tagged q (y :: r)) := (List.sublist_cons_self y r).filter _
      exact this.sublist (hs.map _)

theorem Holds.lone {pl : List Place} {a m : List Elem} (h : Holds pl a m) : Lone pl m := by
  induction h with
  | @mk pl a m once has more empty order value sub ihe ihs =>
    refine ⟨apart_of_once fun q p hp => ?_, fun y hy p hp hn => ?_⟩
    · obtain ⟨p1, p2, p3⟩ := placeOf_some hp
      exact (once p p1 p3 q p2).2
    · obtain ⟨p1, p2, p3⟩ := placeOf_some hp
      have hy' : y ∈ tagged y.tag m := mem_tagged.2 ⟨hy, rfl⟩
      by_cases hx : ∃ x ∈ tagged y.tag a, identity p x = identity p y
      · obtain ⟨x, hx, hxy⟩ := hx
        exact ihs p p1 hn _ p2 x hx y hy' hxy
      · exact ihe p p1 p3 _ p2 y hy' fun x hx' hxy => hx ⟨x, hx', hxy⟩

/-- The order does not matter for what a server holds. -/
theorem Holds.same {pl : List Place} {a m : List Elem} (h : Holds pl a m) : ∀ {sc : Scope} {ex : QName → QName → Bool} {m' : List Elem},
    Ground d rd sc pl ex → SameNodes m m' → Holds pl a m' := by
  have hdist := h.lone
  induction h with
  | @mk pl a m once has more empty order value sub ihe ihs =>
    intro sc ex m' hG hs
    have hid : ∀ p ∈ pl, DataKind p.2 → ∀ q, Named p.1 q p.2 → ∀ y ∈ tagged q m, ∀ y', Like y y' → identity p y = identity p y' := by
      intro p hp hk q hq y hy y' hl
      obtain ⟨hy1, hy2⟩ := mem_tagged.1 hy
      have hpo : placeOf pl y.tag = some p := by rw [hy2]; exact placeOf_eq hG.floor.field.one hp hq hk
      refine identity_like hl fun hlist => ?_
      cases hdist with
      | mk _ dsub => exact (dsub y hy1 p hpo (.inr hlist)).keys (hG.keysFree hpo)
    have hback : ∀ p ∈ pl, DataKind p.2 → ∀ q, Named p.1 q p.2 → ∀ y' ∈ tagged q m',
        ∃ y ∈ tagged q m, Like y y' ∧ identity p y = identity p y' := by
      intro p hp hk q hq y' hy'
      obtain ⟨y, hy, hl⟩ := (hs.tagged q).mem hy'
      exact ⟨y, hy, hl, hid p hp hk q hq y hy y' hl⟩
    have hdsub : ∀ p ∈ pl, DataKind p.2 → ∀ q, Named p.1 q p.2 → (p.2.info.keyword = "container" ∨ p.2.info.keyword = "list") →
        ∀ y ∈ tagged q m, Lone (places p.1 p.2.kids) y.kids ∧ ∃ sc', Ground d rd sc' (places p.1 p.2.kids) (rivals p) := by
      intro p hp hk q hq hn y hy
      obtain ⟨hy1, hy2⟩ := mem_tagged.1 hy
      have hpo : placeOf pl y.tag = some p := by rw [hy2]; exact placeOf_eq hG.floor.field.one hp hq hk
      cases hdist with
      | mk _ dsub => exact ⟨dsub y hy1 p hpo hn, hG.below hpo⟩
    refine ⟨fun p hp hk q hq => ⟨(once p hp hk q hq).1, ?_⟩, fun p hp hk q hq x hx => ?_, fun p hp hk q hq y' hy' hno => ?_,
      fun p hp hk q hq y' hy' hno => ?_, fun p hp hk hu q hq => ?_, fun p hp hk q hq x hx y' hy' => ?_,
      fun p hp hk q hq x hx y' hy' hxy => ?_⟩
    · obtain ⟨u, hu, hf⟩ := (hs.tagged q).split
      have h1 := (hu.map (identity p)).nodup_iff.1 (once p hp hk q hq).2
      have h2 : u.map (identity p) = (tagged q m').map (identity p) := by
        have hmem : ∀ y ∈ u, y ∈ tagged q m := fun y hy => hu.mem_iff.2 hy
        clear hu h1
        generalize tagged q m' = v at hf
        induction hf with
        | nil => rfl
        | @cons a b u v hab _ ih =>
          rw [List.map_cons, List.map_cons, hid p hp hk q hq a (hmem a (by simp)) b hab, ih fun y hy => hmem y (by simp [hy])]
      rw [← h2]
      exact h1
    · obtain ⟨y, hy, hxy⟩ := has p hp hk q hq x hx
      obtain ⟨y', hy', hl⟩ := (hs.symm.tagged q).mem hy
      exact ⟨y', hy', hxy.trans (hid p hp hk q hq y hy y' hl.symm)⟩
    · obtain ⟨y, hy, _, hi⟩ := hback p hp hk q hq y' hy'
      exact more p hp hk q hq y hy fun x hx hxy => hno x hx (hxy.trans hi)
    · obtain ⟨y, hy, hl, hi⟩ := hback p hp hk q hq y' hy'
      have hno' : ∀ x ∈ tagged q a, identity p x ≠ identity p y := fun x hx hxy => hno x hx (hxy.trans hi)
      obtain ⟨hc, _⟩ := more p hp hk q hq y hy hno'
      obtain ⟨hd, sc', hG'⟩ := hdsub p hp hk q hq (.inl hc) y hy
      exact ihe p hp hk q hq y hy hno' hd hG' hl.kids
    · exact absurd hu (hG.free p hp).here'
    · have hk' : DataKind p.2 := by simp [DataKind, hk]
      obtain ⟨y, hy, hl, _⟩ := hback p hp hk' q hq y' hy'
      exact (value p hp hk q hq x hx y hy).trans (valueOf_congr hl.nsmap hl.text)
    · have hk' : DataKind p.2 := by rcases hk with hk | hk <;> simp [DataKind, hk]
      obtain ⟨y, hy, hl, hi⟩ := hback p hp hk' q hq y' hy'
      obtain ⟨hd, sc', hG'⟩ := hdsub p hp hk' q hq hk y hy
      exact ihs p hp hk q hq x hx y hy (hxy.trans hi.symm) hd hG' hl.kids

/-! ## The edit-config -/

/-- What is asked of an edit-config. -/
inductive Ready : (QName → QName → Bool) → List Place → List Elem → Prop
  | mk {ex : QName → QName → Bool} {pl : List Place} {D : List Elem}
      (apart : ∀ a ∈ D, ∀ b ∈ D, ex a.tag b.tag = false)
      (known : ∀ o ∈ D, ∃ p, placeOf pl o.tag = some p)
      (once : Apart pl D)
      (keyed : ∀ o ∈ D, ∀ p, placeOf pl o.tag = some p → KeysFree p)
      (one : ∀ o ∈ D, ∀ p, placeOf pl o.tag = some p → p.2.info.keyword = "list" → ∀ q ∈ keyNames p, ∃ c, tagged q o.kids = [c])
      (stays : ∀ o ∈ D, ∀ p, placeOf pl o.tag = some p → deletes o = false → p.2.info.keyword = "list" →
        ∀ c ∈ o.kids, c.tag ∈ keyNames p → deletes c = false)
      (leaf : ∀ o ∈ D, ∀ p, placeOf pl o.tag = some p → p.2.info.keyword = "leaf" ∨ p.2.info.keyword = "leaf-list" → o.kids = [])
      (sub : ∀ o ∈ D, ∀ p, placeOf pl o.tag = some p → deletes o = false → Ready (rivals p) (places p.1 p.2.kids) o.kids) :
      Ready ex pl D

theorem Ready.sound {D : List Elem} (h : Ready ex pl D) : Sound ex pl D := by
  induction h with
  | mk apart known once keyed one stays leaf sub ih =>
    exact ⟨apart, known, once, keyed, fun o ho p hp hd hl => ⟨one o ho p hp hl, stays o ho p hp hd hl⟩, ih⟩

theorem Ready.same {ex : QName → QName → Bool} {pl : List Place} {D : List Elem} (h : Ready ex pl D) : ∀ {D' : List Elem},
    SameNodes D D' → Ready ex pl D' := by
  induction h with
  | @mk ex pl D apart known once keyed one stays leaf sub ih =>
    intro D' hs
    refine ⟨fun a' ha' b' hb' => ?_, fun o' ho' => ?_, ?_, fun o' ho' p hp => ?_, fun o' ho' p hp hl q hq => ?_,
      fun o' ho' p hp hd hl c' hc' hcq => ?_, fun o' ho' p hp hl => ?_, fun o' ho' p hp hd => ?_⟩
    · obtain ⟨a, ha, h1⟩ := hs.mem ha'
      obtain ⟨b, hb, h2⟩ := hs.mem hb'
      rw [← h1.tag, ← h2.tag]
      exact apart a ha b hb
    · obtain ⟨o, ho, h1⟩ := hs.mem ho'
      rw [← h1.tag]
      exact known o ho
    · refine once.same hs fun y hy p hp hl q hq => ?_
      obtain ⟨c, hc⟩ := one y hy p hp hl q hq
      rw [hc]; simp
    · obtain ⟨o, ho, h1⟩ := hs.mem ho'
      exact keyed o ho p (by rw [h1.tag]; exact hp)
    · obtain ⟨o, ho, h1⟩ := hs.mem ho'
      obtain ⟨c, hc⟩ := one o ho p (by rw [h1.tag]; exact hp) hl q hq
      have h2 := h1.kids.tagged q
      rw [hc] at h2
      obtain ⟨c', hc', _⟩ := h2.single
      exact ⟨c', hc'⟩
    · obtain ⟨o, ho, h1⟩ := hs.mem ho'
      obtain ⟨c, hc, h2⟩ := h1.kids.mem hc'
      rw [← h2.deletes]
      exact stays o ho p (by rw [h1.tag]; exact hp) (by rw [h1.deletes]; exact hd) hl c hc (by rw [h2.tag]; exact hcq)
    · obtain ⟨o, ho, h1⟩ := hs.mem ho'
      have h2 := h1.kids
      rw [leaf o ho p (by rw [h1.tag]; exact hp) hl] at h2
      exact h2.nil_left
    · obtain ⟨o, ho, h1⟩ := hs.mem ho'
      exact ih o ho p (by rw [h1.tag]; exact hp) (by rw [h1.deletes]; exact hd) h1.kids

theorem keysOf_same (h : Like o o') : SameNodes (keysOf p o) (keysOf p o') := by
  unfold keysOf
  refine (h.kids.filter fun x _ y _ hxy => by rw [hxy.tag]).map fun x _ y _ hxy => ?_
  rw [hxy.tag, hxy.nsmap, hxy.text]
  exact Like.refl _

theorem keysOf_lone (hk : KeysFree p) (h : ∀ q ∈ keyNames p, ∃ c, tagged q o.kids = [c]) :
    Lone (places p.1 p.2.kids) (keysOf p o) := by
  have hin : ∀ y ∈ keysOf p o, y.tag ∈ keyNames p := by
    intro y hy
    unfold keysOf at hy
    obtain ⟨c, hc, rfl⟩ := List.mem_map.1 hy
    exact of_decide_eq_true (List.mem_filter.1 hc).2
  refine ⟨apart_of_once fun q p' hp' => ?_, fun y hy p' hp' hn => ?_⟩
  · by_cases hq : q ∈ keyNames p
    · obtain ⟨c, hc⟩ := h q hq
      have : tagged q (keysOf p o) = [.mk c.tag c.nsmap [] c.text []] := by
        unfold keysOf
        rw [tagged_map (φ := fun c => .mk c.tag c.nsmap [] c.text []) (fun y => Elem.tag_mk ..)]
        have : tagged q (o.kids.filter fun c => decide (c.tag ∈ keyNames p)) = [c] := by
          rw [← hc]
          exact tagged_filter (P := fun t => decide (t ∈ keyNames p)) (decide_eq_true hq) o.kids
        rw [this]
        rfl
      rw [this]
      simp
    · have : tagged q (keysOf p o) = [] := List.filter_eq_nil_iff.2 fun y hy => by
        have := hin y hy
        simp only [decide_eq_true_eq]
        intro e
        rw [e] at this
        exact hq this
      rw [this]
      simp
  · obtain ⟨_, p2, hp2, hl⟩ := hk y.tag (hin y hy)
    rw [hp'] at hp2
    cases hp2
    rw [hl] at hn
    exact absurd hn (by decide)

theorem about_like (h : Like o o') (hy : Like y y') (ho : p.2.info.keyword = "list" → ∀ q ∈ keyNames p, (tagged q o.kids).length ≤ 1)
    (hk : p.2.info.keyword = "list" → ∀ q ∈ keyNames p, (tagged q y.kids).length ≤ 1) : about p o y = about p o' y' := by
  rw [Bool.eq_iff_iff, about_both, about_both, identity_like h ho, identity_like hy hk, h.tag, hy.tag]

/-- The nodes of an edit-config may be processed in any order. -/
theorem same_serve {ex : QName → QName → Bool} {pl : List Place} {D : List Elem} (h : Ready ex pl D) :
    ∀ {sc : Scope} {D' m m' r : List Elem}, Ground d rd sc pl ex → SameNodes D D' → Lone pl m → SameNodes m m' →
    serve pl D m = some r → ∃ r', serve pl D' m' = some r' ∧ SameNodes r r' := by
  have hready := h
  induction h with
  | @mk ex pl D apart known once keyed one stays leaf sub ih =>
    intro sc D' m m' r hG hD hm hmm hr
    have hm' := hm.same hG hmm
    have hready' := hready.same hD
    have few : ∀ o ∈ D, ∀ p, placeOf pl o.tag = some p → p.2.info.keyword = "list" → ∀ q ∈ keyNames p, (tagged q o.kids).length ≤ 1 := by
      intro o ho p hp hl q hq
      obtain ⟨c, hc⟩ := one o ho p hp hl q hq
      rw [hc]; simp
    have fewm : ∀ y ∈ m, ∀ p, placeOf pl y.tag = some p → p.2.info.keyword = "list" → ∀ q ∈ keyNames p, (tagged q y.kids).length ≤ 1 := by
      intro y hy p hp hl
      cases hm with
      | mk _ msub => exact (msub y hy p hp (.inr hl)).keys (hG.keysFree hp)
    have hab : ∀ o ∈ D, ∀ o', Like o o' → ∀ p, placeOf pl o.tag = some p → ∀ y ∈ m, ∀ y', Like y y' → about p o y = about p o' y' := by
      intro o ho o' hl p hp y hy y' hyl
      by_cases ht : y.tag = o.tag
      · exact about_like hl hyl (few o ho p hp) (fewm y hy p (by rw [ht]; exact hp))
      · have ht' : y'.tag ≠ o'.tag := by rw [← hl.tag, ← hyl.tag]; exact ht
        unfold about
        simp [ht, ht']
    have hfair : ∀ o ∈ D, ∀ p, placeOf pl o.tag = some p → Fair p o := fun o ho p hp =>
      ⟨keyed o ho p hp, hG.notByUser hp, fun hd hl => ⟨one o ho p hp hl, stays o ho p hp hd hl⟩⟩
    have hfair' : ∀ o ∈ D', ∀ p, placeOf pl o.tag = some p → Fair p o := by
      cases hready' with
      | mk _ _ _ keyed one stays _ _ =>
        exact fun o ho p hp => ⟨keyed o ho p hp, hG.notByUser hp, fun hd hl => ⟨one o ho p hp hl, stays o ho p hp hd hl⟩⟩
    have hap' : Apart pl D' := by cases hready' with | mk _ _ once' _ _ _ _ _ => exact once'
    have hapm : Apart pl m := by cases hm with | mk here _ => exact here
    have hapm' : Apart pl m' := by cases hm' with | mk here _ => exact here
    obtain ⟨f1, _⟩ := serve_flat D m once hfair hapm
    obtain ⟨g1, g2⟩ := serve_flat D' m' hap' hfair' hapm'
    obtain ⟨some1, perm1⟩ := f1 r hr
    have heff : ∀ o ∈ D, ∀ o', Like o o' → ∃ n', effIn pl m' o' = some n' ∧
        (((effIn pl m o).join = none ∧ n' = none) ∨ ∃ a b, (effIn pl m o).join = some a ∧ n' = some b ∧ Like a b) := by
      intro o ho o' hl
      obtain ⟨p, hp⟩ := known o ho
      have hp' : placeOf pl o'.tag = some p := by rw [← hl.tag]; exact hp
      obtain ⟨n, hn⟩ := Option.isSome_iff_exists.1 (some1 o ho)
      rw [hn]
      unfold effIn at hn ⊢
      rw [hp] at hn
      rw [hp']
      simp only at hn ⊢
      have hold := hmm.find (P := about p o) (Q := about p o') (fun y hy y' _ hyl => hab o ho o' hl p hp y hy y' hyl) (hapm.few hp)
      have hold' : (m'.find? (about p o')).isSome = (m.find? (about p o)).isSome ∧
          ((m.find? (about p o)) = none ↔ (m'.find? (about p o')) = none) := by
        rcases hold with ⟨h1, h2⟩ | ⟨x, y, h1, h2, _⟩ <;> simp [h1, h2]
      unfold eff at hn ⊢
      rw [hold'.1]
      simp only [← hl.opOf, ← hold'.2] at hn ⊢
      split_ifs at hn with h1 h2 h3 h4 h5
      · rw [if_pos h1, if_pos h2]
        exact ⟨none, rfl, .inl ⟨by rw [← hn]; rfl, rfl⟩⟩
      · rw [if_neg h1, if_pos h3]
        exact ⟨none, rfl, .inl ⟨by rw [← hn]; rfl, rfl⟩⟩
      · rw [if_neg h1, if_neg h3, if_pos h4, if_pos h5]
        refine ⟨_, rfl, .inr ⟨_, _, by rw [← hn]; rfl, rfl, ?_⟩⟩
        rw [hl.tag, hl.nsmap, hl.text]
        exact Like.refl _
      · rw [if_neg h1, if_neg h3, if_pos h4, if_neg h5]
        have hdel : deletes o = false := by
          unfold deletes
          rw [operation_eq]
          exact decide_eq_false fun h => h.elim h1 h3
        have hnode : p.2.info.keyword = "container" ∨ p.2.info.keyword = "list" := by
          obtain ⟨_, _, hk⟩ := placeOf_some hp
          unfold DataKind at hk
          simp only [List.mem_cons, List.not_mem_nil, or_false] at hk
          rcases hk with hk | hk | hk | hk
          · exact .inl hk
          · exact absurd (.inl hk) h5
          · exact absurd (.inr hk) h5
          · exact .inr hk
        have hstart : SameNodes (startOf p o (m.find? (about p o))) (startOf p o' (m'.find? (about p o'))) ∧
            Lone (places p.1 p.2.kids) (startOf p o (m.find? (about p o))) := by
          have hkeys : SameNodes (if p.2.info.keyword = "list" then keysOf p o else [])
              (if p.2.info.keyword = "list" then keysOf p o' else []) ∧
              Lone (places p.1 p.2.kids) (if p.2.info.keyword = "list" then keysOf p o else []) := by
            split
            · rename_i hlist
              exact ⟨keysOf_same hl, keysOf_lone (keyed o ho p hp) (one o ho p hp hlist)⟩
            · exact ⟨.nil, ⟨.nil, fun y hy => by cases hy⟩⟩
          rcases hold with ⟨h1, h2⟩ | ⟨x, y, h1, h2, h3⟩
          · rw [h1, h2]
            exact hkeys
          · rw [h1, h2]
            simp only [startOf, ← hl.opOf]
            split
            · refine ⟨h3.kids, ?_⟩
              have hxm := List.mem_of_find?_eq_some h1
              have hxt : about p o x = true := List.find?_some h1
              cases hm with
              | mk _ msub => exact msub x hxm p (by rw [about_tag hxt]; exact hp) hnode
            · exact hkeys
        cases ht : serve (places p.1 p.2.kids) o.kids (startOf p o (m.find? (about p o))) with
        | none => rw [ht] at hn; cases hn
        | some t =>
          rw [ht] at hn
          obtain ⟨sc', hG'⟩ := hG.below hp
          obtain ⟨t', ht', htt⟩ := ih o ho p hp hdel (sub o ho p hp hdel) hG' hl.kids hstart.2 hstart.1 ht
          rw [ht']
          refine ⟨_, rfl, .inr ⟨_, _, by rw [← hn]; rfl, rfl, ?_⟩⟩
          rw [hl.tag, hl.nsmap]
          exact ⟨rfl, rfl, rfl, rfl, by rw [Elem.kids_mk, Elem.kids_mk]; exact htt⟩
    obtain ⟨r', hr'⟩ := g2 fun o' ho' => by
      obtain ⟨o, ho, hl⟩ := hD.mem ho'
      obtain ⟨n', hn', _⟩ := heff o ho o' hl
      rw [hn']; rfl
    refine ⟨r', hr', ?_⟩
    obtain ⟨_, perm2⟩ := g1 r' hr'
    refine ((SameNodes.of_perm perm1).trans ?_).trans (SameNodes.of_perm perm2.symm)
    refine SameNodes.append ?_ ?_
    · unfold keep
      refine hmm.filter fun y hy y' hy' hyl => ?_
      rw [Bool.eq_iff_iff, List.all_eq_true, List.all_eq_true]
      have haI : ∀ o ∈ D, ∀ o', Like o o' → aboutIn pl o y = aboutIn pl o' y' := by
        intro o ho o' hl
        obtain ⟨p, hp⟩ := known o ho
        unfold aboutIn
        rw [← hl.tag, hp]
        exact hab o ho o' hl p hp y hy y' hyl
      constructor
      · intro h o' ho'
        obtain ⟨o, ho, hl⟩ := hD.mem ho'
        rw [← haI o ho o' hl]
        exact h o ho
      · intro h o ho
        obtain ⟨o', ho', hl⟩ := hD.symm.mem ho
        rw [haI o ho o' hl.symm]
        exact h o' ho'
    · unfold fresh
      refine hD.filterMap fun o ho o' ho' hl => ?_
      obtain ⟨n', hn', hcase⟩ := heff o ho o' hl
      rw [hn']
      rcases hcase with ⟨h1, h2⟩ | ⟨a, b, h1, h2, h3⟩
      · exact .inl ⟨h1, by rw [h2]; rfl⟩
      · exact .inr ⟨a, b, h1, by rw [h2]; rfl, h3⟩

end
end NcDiff.Compile
