import Verif.Spec.Keeps
import Verif.Proof.ServeShuffle
import Verif.Proof.Minimal
import Verif.Proof.Prefer
/-!
# A server keeps what an edit-config is not about
-/

namespace NcDiff.Compile

section
variable {pl : List Place} {ex : QName → QName → Bool} {p : Place} {o e : Elem} {l : List Elem}

/-! ## One node -/

theorem putBefore_find {P Q : Elem → Bool} (he : P e = true) : ∀ {l l' : List Elem}, (∀ y ∈ l, P y = false) → putBefore Q e l = some l' →
    l'.find? P = some e ∧ (l'.filter fun y => !P y) = l
  | [], _, _, h => by simp [putBefore] at h
  | y :: r, l', hl, h => by
    rw [putBefore] at h
    have hy := hl y (by simp)
    have hr : (r.filter fun y => !P y) = r := List.filter_eq_self.2 fun z hz => by simp [hl z (by simp [hz])]
    split at h
    · cases h
      simp [he, hy, hr]
    · cases h1 : putBefore Q e r with
      | none => simp [h1] at h
      | some l1 =>
        simp only [h1, Option.map_some, Option.some.injEq] at h
        subst h
        obtain ⟨h2, h3⟩ := putBefore_find he (fun z hz => hl z (by simp [hz])) h1
        simp [hy, h2, h3]

theorem putAfter_find {P Q : Elem → Bool} (he : P e = true) : ∀ {l l' : List Elem}, (∀ y ∈ l, P y = false) → putAfter Q e l = some l' →
    l'.find? P = some e ∧ (l'.filter fun y => !P y) = l
  | [], _, _, h => by simp [putAfter] at h
  | y :: r, l', hl, h => by
    rw [putAfter] at h
    have hy := hl y (by simp)
    have hr : (r.filter fun y => !P y) = r := List.filter_eq_self.2 fun z hz => by simp [hl z (by simp [hz])]
    split at h
    · cases h
      simp [he, hy, hr]
    · cases h1 : putAfter Q e r with
      | none => simp [h1] at h
      | some l1 =>
        simp only [h1, Option.map_some, Option.some.injEq] at h
        subst h
        obtain ⟨h2, h3⟩ := putAfter_find he (fun z hz => hl z (by simp [hz])) h1
        simp [hy, h2, h3]

theorem map_ite_find {P : Elem → Bool} (he : P e = true) : ∀ l : List Elem, l.any P = true →
    (l.map fun y => if P y then e else y).find? P = some e
  | [], h => by simp at h
  | y :: r, h => by
    cases hy : P y with
    | true => simp [hy, he]
    | false =>
      rw [List.any_cons, hy, Bool.false_or] at h
      simp only [List.map_cons, hy, Bool.false_eq_true, if_false, List.find?_cons]
      exact map_ite_find he r h

theorem map_ite_filter {P : Elem → Bool} (he : P e = true) (l : List Elem) :
    ((l.map fun y => if P y then e else y).filter fun y => !P y) = l.filter fun y => !P y := by
  induction l with
  | nil => rfl
  | cons y r ih =>
    cases hy : P y with
    | true => simp [hy, he, ih]
    | false => simp [hy, ih]

/-- The new instance is there, and the others are the same. -/
theorem put_keeps (he : about p o e = true) {l' : List Elem} (h : put p o e l = some l') :
    l'.find? (about p o) = some e ∧ (l'.filter fun y => !about p o y) = l.filter fun y => !about p o y := by
  have hno : ∀ y ∈ l.filter (fun y => !about p o y), about p o y = false := fun y hy => by
    simpa using (List.mem_filter.1 hy).2
  have hself : ((l.filter fun y => !about p o y).filter fun y => !about p o y) = l.filter fun y => !about p o y :=
    List.filter_eq_self.2 fun y hy => by simp [hno y hy]
  have hnone : (l.filter fun y => !about p o y).find? (about p o) = none :=
    List.find?_eq_none.2 fun y hy => by simp [hno y hy]
  unfold put at h
  dsimp only at h
  split at h
  · cases h
    split
    · rename_i ha
      exact ⟨map_ite_find he l ha, map_ite_filter he l⟩
    · rename_i ha
      rw [Bool.not_eq_true, List.any_eq_false] at ha
      rw [List.find?_append, List.find?_eq_none.2 ha, List.filter_append]
      simp [he]
  · split_ifs at h
    · cases h
      simp only [List.find?_cons, he, List.filter_cons, Bool.not_true, Bool.false_eq_true, if_false, hself, and_self]
    · cases h
      rw [List.find?_append, hnone, List.filter_append, hself]
      simp [he]
    · exact putBefore_find he hno h
    · exact putAfter_find he hno h
  · cases h

/-- What a node does to its instance and to the others. -/
theorem change_keeps {ins : List Elem → Option (List Elem)} {l' : List Elem}
    (hnew : deletes o = false → ¬ (p.2.info.keyword = "leaf" ∨ p.2.info.keyword = "leaf-list") →
      ∀ r, ins (startOf p o (l.find? (about p o))) = some r → about p o (.mk o.tag o.nsmap [] none r) = true)
    (h : change p o ins l = some l') :
    (l'.filter fun y => !about p o y) = (l.filter fun y => !about p o y) ∧
    (opOf o = "merge" → ¬ (p.2.info.keyword = "leaf" ∨ p.2.info.keyword = "leaf-list") → ∀ y, l.find? (about p o) = some y →
      ∃ r, ins y.kids = some r ∧ l'.find? (about p o) = some (.mk o.tag o.nsmap [] none r)) := by
  have hself : ((l.filter fun y => !about p o y).filter fun y => !about p o y) = l.filter fun y => !about p o y :=
    List.filter_eq_self.2 fun y hy => (List.mem_filter.1 hy).2
  rw [change_eq] at h
  split_ifs at h with h1 h2 h3 h4 h5
  · cases h
    exact ⟨hself, fun hm => by rw [h1] at hm; exact absurd hm (by decide)⟩
  · cases h
    exact ⟨hself, fun hm => by rw [h3] at hm; exact absurd hm (by decide)⟩
  · have ha : about p o (.mk o.tag o.nsmap [] o.text []) = true := by
      rw [about_both]
      refine ⟨Elem.tag_mk .., ?_⟩
      unfold identity
      rcases h5 with h5 | h5
      · simp [h5]
      · simp [h5, Elem.text_mk]
    exact ⟨(put_keeps ha h).2, fun _ hn => absurd h5 hn⟩
  · have hd : deletes o = false := by
      unfold deletes
      rw [operation_eq]
      exact decide_eq_false fun h => h.elim h1 h3
    cases hr : ins (startOf p o (l.find? (about p o))) with
    | none => simp [hr] at h
    | some r =>
      rw [hr, Option.bind_some] at h
      have := put_keeps (hnew hd h5 r hr) h
      refine ⟨this.2, fun hm _ y hy => ⟨r, ?_, this.1⟩⟩
      rw [hy] at hr
      simpa only [startOf, if_pos hm] using hr

/-! ## All nodes -/

/-- The identity of an entry stays. -/
theorem identity_cases (hk : KeysFree p) (he : p.2.info.keyword = "list" → Entry p o)
    (hs : Sound (rivals p) (places p.1 p.2.kids) o.kids)
    (hn : ¬ (p.2.info.keyword = "leaf" ∨ p.2.info.keyword = "leaf-list")) {r : List Elem}
    (h : serveCases (places p.1 p.2.kids) (rivals p) o.kids (startOf p o (l.find? (about p o))) = some r) :
    identity p (.mk o.tag o.nsmap [] none r) = identity p o := by
  rw [serveCases_eq hs] at h
  unfold identity
  rw [if_neg (fun h => hn (.inr h)), if_neg (fun h => hn (.inr h))]
  split
  · rename_i hl
    refine List.map_congr_left fun q hq => ?_
    obtain ⟨c, hc⟩ := (he hl).one q hq
    obtain ⟨p', hp', hleaf⟩ := (hk q hq).2
    rw [Elem.kids_mk, hc]
    have hkeys : (tagged q (keysOf p o)).map Elem.text = [c.text] := by
      unfold keysOf
      rw [tagged_map (φ := fun c => .mk c.tag c.nsmap [] c.text []) (fun y => Elem.tag_mk ..)]
      have : tagged q (o.kids.filter fun c => decide (c.tag ∈ keyNames p)) = [c] := by
        rw [← hc]
        exact tagged_filter (P := fun t => decide (t ∈ keyNames p)) (decide_eq_true hq) o.kids
      rw [this]
      rfl
    refine serve_texts hp' hleaf o.kids _ r ?_ ?_ h
    · intro x hx hxq
      refine ⟨(he hl).stays x hx (by rw [hxq]; exact hq), ?_⟩
      have : x ∈ tagged q o.kids := List.mem_filter.2 ⟨hx, decide_eq_true hxq⟩
      rw [hc, List.mem_singleton] at this
      rw [this]
    · rw [settle_texts (hk q hq).1]
      cases hf : l.find? (about p o) with
      | none => simp only [startOf]; rw [if_pos hl]; exact hkeys
      | some y =>
        simp only [startOf]
        split
        · have hi := (about_both.1 (List.find?_some hf)).2
          unfold identity at hi
          rw [if_neg (fun h => hn (.inr h)), if_neg (fun h => hn (.inr h)), if_pos hl, if_pos hl] at hi
          have := List.map_inj_left.1 hi q hq
          rw [this, hc]
          rfl
        · first | exact hkeys | (rw [if_pos hl]; exact hkeys)
  · rfl

theorem filter_of_filter {P Q : Elem → Bool} {l l' : List Elem} (h : l'.filter Q = l.filter Q) (hP : ∀ y, P y = true → Q y = true) :
    l'.filter P = l.filter P := by
  have : ∀ m : List Elem, m.filter P = (m.filter Q).filter P := by
    intro m
    rw [List.filter_filter]
    refine List.filter_congr fun y _ => ?_
    cases hp : P y with
    | false => rfl
    | true => rw [hP y hp]; rfl
  rw [this l', this l, h]

theorem find_of_filter {P Q : Elem → Bool} {l l' : List Elem} (h : l'.filter Q = l.filter Q) (hP : ∀ y, P y = true → Q y = true) :
    l'.find? P = l.find? P := by
  rw [← find_filter_of hP l', ← find_filter_of hP l, h]

/-- What an edit-config is not about stays. -/
theorem serveCases_filter {P : Elem → Bool} : ∀ {D m r : List Elem},
    (∀ o ∈ D, ∀ p, placeOf pl o.tag = some p → KeysFree p) →
    (∀ o ∈ D, ∀ p, placeOf pl o.tag = some p → deletes o = false → p.2.info.keyword = "list" → Entry p o) →
    (∀ o ∈ D, ∀ p, placeOf pl o.tag = some p → deletes o = false → Sound (rivals p) (places p.1 p.2.kids) o.kids) →
    (∀ o ∈ D, ∀ y, P y = true → aboutIn pl o y = false ∧ (deletes o = false → ex o.tag y.tag = false)) →
    serveCases pl ex D m = some r → r.filter P = m.filter P
  | [], m, r, _, _, _, _, h => by rw [serveCases] at h; cases h; rfl
  | o :: D, m, r, h1, h2, h3, hP, h => by
    rw [serveCases] at h
    cases hp : placeOf pl o.tag with
    | none => rw [serveCase_none hp] at h; cases h
    | some p =>
      rw [serveCase_eq hp] at h
      cases hc : change p o (fun l' => serveCases (places p.1 p.2.kids) (rivals p) o.kids l') (others ex o m) with
      | none => rw [hc] at h; cases h
      | some m1 =>
        rw [hc] at h
        have ih := serveCases_filter (fun x hx => h1 x (by simp [hx])) (fun x hx => h2 x (by simp [hx]))
          (fun x hx => h3 x (by simp [hx])) (fun x hx => hP x (by simp [hx])) h
        rw [ih]
        have hk := (change_keeps (fun hd hn r hr => about_both.2 ⟨Elem.tag_mk .., identity_cases (h1 o (by simp) p hp)
          (h2 o (by simp) p hp hd) (h3 o (by simp) p hp hd) hn hr⟩) hc).1
        have e1 : m1.filter P = (others ex o m).filter P := filter_of_filter hk fun y hy => by
          have := (hP o (by simp) y hy).1
          unfold aboutIn at this
          rw [hp] at this
          simp only at this
          simp [this]
        rw [e1]
        unfold others
        split
        · rfl
        · rename_i hd
          rw [List.filter_filter]
          refine List.filter_congr fun y _ => ?_
          cases hy : P y with
          | false => rfl
          | true => simp [(hP o (by simp) y hy).2 (by simpa using hd)]

/-- The instance of a node that is merged is there afterwards, with its children merged. -/
theorem serveCases_find : ∀ {D m r : List Elem},
    (∀ a ∈ D, ∀ b ∈ D, ex a.tag b.tag = false) →
    (D.Pairwise fun o o' => ∀ p, placeOf pl o.tag = some p → about p o o' = false) →
    (∀ o ∈ D, ∀ p, placeOf pl o.tag = some p → KeysFree p) →
    (∀ o ∈ D, ∀ p, placeOf pl o.tag = some p → deletes o = false → p.2.info.keyword = "list" → Entry p o) →
    (∀ o ∈ D, ∀ p, placeOf pl o.tag = some p → deletes o = false → Sound (rivals p) (places p.1 p.2.kids) o.kids) →
    serveCases pl ex D m = some r → ∀ o ∈ D, ∀ p, placeOf pl o.tag = some p → opOf o = "merge" →
      ¬ (p.2.info.keyword = "leaf" ∨ p.2.info.keyword = "leaf-list") → ∀ y, m.find? (about p o) = some y →
      ∃ k, serveCases (places p.1 p.2.kids) (rivals p) o.kids y.kids = some k ∧
        r.find? (about p o) = some (.mk o.tag o.nsmap [] none k)
  | [], _, _, _, _, _, _, _, _ => by simp
  | o :: D, m, r, h0, h0', h1, h2, h3, h => by
    obtain ⟨hone, hD⟩ := List.pairwise_cons.1 h0'
    rw [serveCases] at h
    cases hp : placeOf pl o.tag with
    | none => rw [serveCase_none hp] at h; cases h
    | some p =>
      rw [serveCase_eq hp] at h
      cases hc : change p o (fun l' => serveCases (places p.1 p.2.kids) (rivals p) o.kids l') (others ex o m) with
      | none => rw [hc] at h; cases h
      | some m1 =>
        rw [hc] at h
        obtain ⟨k1, k2⟩ := change_keeps (fun hd hn r hr => about_both.2 ⟨Elem.tag_mk .., identity_cases (h1 o (by simp) p hp)
          (h2 o (by simp) p hp hd) (h3 o (by simp) p hp hd) hn hr⟩) hc
        have hoth : ∀ o' ∈ o :: D, ∀ p', (others ex o m).find? (about p' o') = m.find? (about p' o') := by
          intro o' ho' p'
          unfold others
          split
          · rfl
          · refine find_filter_of (fun y hy => ?_) m
            rw [about_tag hy, h0 o (by simp) o' ho']
            rfl
        have hnot : ∀ o' ∈ D, ∀ y, about p o y = true → aboutIn pl o' y = false := by
          intro o' ho' y hy
          rw [← Bool.not_eq_true]
          intro h
          have := about_same hp hy h
          rw [hone o' ho' p hp] at this
          cases this
        intro o' ho' p' hp' hm hn y hy
        rcases List.mem_cons.1 ho' with rfl | hin
        · rw [hp] at hp'
          cases hp'
          obtain ⟨k, e1, e2⟩ := k2 hm hn y (by rw [hoth _ (by simp)]; exact hy)
          refine ⟨k, e1, ?_⟩
          rw [← e2]
          have hf := serveCases_filter (P := about p o') (fun x hx => h1 x (by simp [hx])) (fun x hx => h2 x (by simp [hx]))
            (fun x hx => h3 x (by simp [hx])) (fun x hx z hz => ⟨hnot x hx z hz, fun _ => by
              rw [about_tag hz]; exact h0 x (by simp [hx]) o' (by simp)⟩) h
          exact find_of_filter hf fun _ h => h
        · refine serveCases_find (fun a ha b hb => h0 a (by simp [ha]) b (by simp [hb])) hD (fun x hx => h1 x (by simp [hx]))
            (fun x hx => h2 x (by simp [hx])) (fun x hx => h3 x (by simp [hx])) h o' hin p' hp' hm hn y ?_
          rw [← hy, ← hoth o' ho' p']
          refine find_of_filter k1 fun z hz => ?_
          cases hz' : about p o z with
          | false => rfl
          | true =>
            have := hnot o' hin z hz'
            unfold aboutIn at this
            rw [hp'] at this
            simp only at this
            rw [hz] at this
            cases this

theorem find_of_apart {m : List Elem} (h : Apart pl m) (hp : placeOf pl o.tag = some p) {y : Elem} (hy : y ∈ m)
    (ha : about p o y = true) : m.find? (about p o) = some y := by
  have hm : y ∈ m.filter (about p o) := List.mem_filter.2 ⟨hy, ha⟩
  rw [← List.head?_filter]
  match hf : m.filter (about p o), h.few hp with
  | [], _ => rw [hf] at hm; cases hm
  | [z], _ =>
    rw [hf, List.mem_singleton] at hm
    rw [hm]; rfl

/-- A server keeps what an edit-config is not about. -/
theorem serveCases_keeps {D : List Elem} (h : Sound ex pl D) : ∀ {m r : List Elem}, Lone pl m → Lone pl r →
    serveCases pl ex D m = some r → Keeps ex pl D m r := by
  induction h with
  | @mk ex pl D apart known once keyed entry sub ih =>
    intro m r hm hl hr
    have main : ∀ o ∈ D, ∀ p, placeOf pl o.tag = some p → p.2.info.keyword = "container" ∨ p.2.info.keyword = "list" →
        operation o = "merge" → ∀ y ∈ m, about p o y = true →
        ∃ k, serveCases (places p.1 p.2.kids) (rivals p) o.kids y.kids = some k ∧
          r.find? (about p o) = some (.mk o.tag o.nsmap [] none k) := by
      intro o ho p hp hk hop y hy ha
      have hn : ¬ (p.2.info.keyword = "leaf" ∨ p.2.info.keyword = "leaf-list") := by
        rcases hk with hk | hk <;> rw [hk] <;> decide
      rw [operation_eq] at hop
      cases hm with
      | mk here _ => exact serveCases_find apart once keyed entry sub hr o ho p hp hop hn y (find_of_apart here hp hy ha)
    refine ⟨serveCases_filter keyed entry sub (fun o ho y hy => ?_) hr, fun o ho p hp hk hop y hy ha => ?_,
      fun o ho p hp hk hop y hy ha y' hy' ha' => ?_⟩
    · rw [Bool.not_eq_true'] at hy
      unfold concerned at hy
      rw [List.any_eq_false] at hy
      have := hy o ho
      rw [Bool.not_eq_true, Bool.or_eq_false_iff, Bool.and_eq_false_iff] at this
      refine ⟨this.1, fun hd => ?_⟩
      rcases this.2 with h | h
      · rw [hd] at h; cases h
      · exact h
    · obtain ⟨k, _, e2⟩ := main o ho p hp hk hop y hy ha
      exact ⟨_, List.mem_of_find?_eq_some e2, List.find?_some e2⟩
    · obtain ⟨k, e1, e2⟩ := main o ho p hp hk hop y hy ha
      cases hm with
      | mk here hsub =>
        cases hl with
        | mk here' hsub' =>
          have e3 := hsub' y' hy' p (by rw [about_tag ha']; exact hp) hk
          rw [find_of_apart here' hp hy' ha'] at e2
          obtain rfl := Option.some.inj e2
          rw [Elem.kids_mk] at e3 ⊢
          refine ih o ho p hp ?_ (hsub y hy p (by rw [about_tag ha]; exact hp) hk) e3 e1
          unfold deletes
          rw [hop]
          decide

theorem concerned_strip (D : List Elem) (y : Elem) : concerned ex pl (stripList D) y = concerned ex pl D y := by
  unfold concerned
  rw [stripList_eq, List.any_map]
  congr 1
  funext o
  simp only [Function.comp, strip_tag, about_strip, deletes_strip]

/-- The attributes that a server does not know do not matter. -/
theorem Keeps.of_strip {ex : QName → QName → Bool} {pl : List Place} {D' m r : List Elem} (h : Keeps ex pl D' m r) :
    ∀ {D : List Elem}, D' = stripList D → Keeps ex pl D m r := by
  induction h with
  | @mk ex pl D' m r beside stays inside ih =>
    rintro D rfl
    simp only [concerned_strip] at beside
    have hin : ∀ o ∈ D, strip o ∈ stripList D := fun o ho => by rw [stripList_eq]; exact List.mem_map_of_mem ho
    refine ⟨beside, fun o ho p hp hk hop y hy ha => ?_, fun o ho p hp hk hop y hy ha y' hy' ha' => ?_⟩
    · obtain ⟨y', h1, h2⟩ := stays _ (hin o ho) p (by rw [strip_tag]; exact hp) hk (by rw [operation_strip]; exact hop) y hy
        (by rw [about_strip]; exact ha)
      exact ⟨y', h1, by rwa [about_strip] at h2⟩
    · exact ih _ (hin o ho) p (by rw [strip_tag]; exact hp) hk (by rw [operation_strip]; exact hop) y hy
        (by rw [about_strip]; exact ha) y' hy' (by rw [about_strip]; exact ha') (by rw [strip_kids, stripList_eq])

/-! ## A server with more models -/

theorem Richer.sub_places {pl pl' : List Place} (hs : ∀ t p, placeOf pl t = some p → placeOf pl' t = some p)
    (hr : ∀ t p, placeOf pl t = some p → Richer (places p.1 p.2.kids) (places p.1 p.2.kids)) : Richer pl pl' := by
  refine ⟨fun t p hp => ⟨p, hs t p hp, rfl, rfl, fun _ _ _ _ => rfl⟩, fun t p p' hp hp' => ?_⟩
  rw [hs t p hp] at hp'
  obtain rfl := Option.some.inj hp'
  exact hr t p hp

theorem change_mono {p' : Place} (hi : p'.2.info = p.2.info) (hk : keyNames p' = keyNames p)
    {ins ins' : List Elem → Option (List Elem)} (h : ∀ a b, ins a = some b → ins' a = some b) {l' : List Elem}
    (hc : change p o ins l = some l') : change p' o ins' l = some l' := by
  have hid : ∀ x, identity p' x = identity p x := fun x => by unfold identity; rw [hi, hk]
  have hab : about p' o = about p o := by funext y; unfold about; rw [hid, hid]
  have han : anchored p' o = anchored p o := by funext y; unfold anchored; rw [hi, hk]
  have hput : ∀ e, put p' o e l = put p o e l := fun e => by unfold put byUser; rw [hab, han, hi]
  have hst : ∀ y, startOf p' o y = startOf p o y := fun y => by unfold startOf keysOf; rw [hi, hk]
  rw [change_eq] at hc ⊢
  rw [hab, hi, hst]
  simp only [hput]
  split_ifs at hc ⊢
  · exact hc
  · exact hc
  · exact hc
  · cases hr : ins (startOf p o (l.find? (about p o))) with
    | none => rw [hr] at hc; cases hc
    | some r => rw [hr] at hc; rw [h _ _ hr]; exact hc

mutual
theorem serve_richer : ∀ (D : List Elem) {pl pl' : List Place}, Richer pl pl' → ∀ {m r : List Elem}, serve pl D m = some r →
    serve pl' D m = some r
  | [], _, _, _, m, r, h => by rw [serve] at h ⊢; exact h
  | o :: D, pl, pl', hR, m, r, h => by
    rw [serve] at h ⊢
    cases h1 : serveOne pl o m with
    | none => rw [h1] at h; cases h
    | some m1 =>
      rw [h1] at h
      rw [serveOne_richer o hR h1]
      exact serve_richer D hR h
theorem serveOne_richer : ∀ (o : Elem) {pl pl' : List Place}, Richer pl pl' → ∀ {m r : List Elem}, serveOne pl o m = some r →
    serveOne pl' o m = some r
  | .mk t n a x ks, pl, pl', hR, m, r, h => by
    rw [serveOne] at h ⊢
    cases hp : placeOf pl t with
    | none => rw [hp] at h; cases h
    | some p =>
      cases hR with
      | mk has sub =>
        obtain ⟨p', e1, e2, e3, _⟩ := has t p hp
        have e5 := sub t p p' hp e1
        rw [hp] at h
        rw [e1]
        exact change_mono e2 e3 (fun a b hab => serve_richer ks e5 hab) h
end

mutual
theorem serveCases_richer : ∀ (D : List Elem) {pl pl' : List Place} {ex ex' : QName → QName → Bool}, Richer pl pl' →
    (∀ q c, placeOf pl q = some c → ∀ q', ex' q q' = ex q q') → ∀ {m r : List Elem}, serveCases pl ex D m = some r →
    serveCases pl' ex' D m = some r
  | [], _, _, _, _, _, _, m, r, h => by rw [serveCases] at h ⊢; exact h
  | o :: D, pl, pl', ex, ex', hR, hx, m, r, h => by
    rw [serveCases] at h ⊢
    cases h1 : serveCase pl ex o m with
    | none => rw [h1] at h; cases h
    | some m1 =>
      rw [h1] at h
      rw [serveCase_richer o hR hx h1]
      exact serveCases_richer D hR hx h
theorem serveCase_richer : ∀ (o : Elem) {pl pl' : List Place} {ex ex' : QName → QName → Bool}, Richer pl pl' →
    (∀ q c, placeOf pl q = some c → ∀ q', ex' q q' = ex q q') → ∀ {m r : List Elem}, serveCase pl ex o m = some r →
    serveCase pl' ex' o m = some r
  | .mk t n a x ks, pl, pl', ex, ex', hR, hx, m, r, h => by
    rw [serveCase] at h ⊢
    cases hp : placeOf pl t with
    | none => rw [hp] at h; cases h
    | some p =>
      cases hR with
      | mk has sub =>
        obtain ⟨p', e1, e2, e3, e4⟩ := has t p hp
        have e5 := sub t p p' hp e1
        rw [hp] at h
        rw [e1]
        have ho : others ex' (.mk t n a x ks) m = others ex (.mk t n a x ks) m := by
          unfold others
          split
          · rfl
          · refine List.filter_congr fun y _ => ?_
            rw [Elem.tag_mk, hx t p hp]
        simp only [ho] at h ⊢
        exact change_mono e2 e3 (fun a b hab => serveCases_richer ks e5 e4 hab) h
end

/-! ## What is the same -/

/-- What of other models is there is the same. -/
theorem Keeps.strangers {D m r : List Elem} (h : Keeps ex pl D m r) (hx : ∀ q q', ex q q' = false) :
    (r.filter fun y => (placeOf pl y.tag).isNone) = m.filter fun y => (placeOf pl y.tag).isNone := by
  cases h with
  | mk beside _ _ =>
    refine filter_of_filter beside fun y hy => ?_
    rw [Bool.not_eq_true']
    unfold concerned
    rw [List.any_eq_false]
    intro o _ hcon
    rw [hx, Bool.and_false, Bool.or_false] at hcon
    cases hpo : placeOf pl o.tag with
    | none => rw [hpo] at hcon; cases hcon
    | some p =>
      rw [hpo] at hcon
      rw [about_tag hcon, hpo] at hy
      cases hy

theorem Keeps.beside' {D m r : List Elem} (h : Keeps ex pl D m r) (hx : ∀ q q', ex q q' = false) {y : Elem} (hy : y ∈ m)
    (hn : ∀ o ∈ D, ∀ p, placeOf pl o.tag = some p → about p o y = false) : y ∈ r := by
  cases h with
  | mk beside _ _ =>
    have hin : y ∈ m.filter fun y => !concerned ex pl D y := by
      refine List.mem_filter.2 ⟨hy, ?_⟩
      rw [Bool.not_eq_true']
      unfold concerned
      rw [List.any_eq_false]
      intro o hoo hcon
      rw [hx, Bool.and_false, Bool.or_false] at hcon
      cases hpo : placeOf pl o.tag with
      | none => rw [hpo] at hcon; cases hcon
      | some p =>
        rw [hpo] at hcon
        have h1 : about p o y = true := hcon
        rw [hn o hoo p hpo] at h1
        cases h1
    rw [← beside] at hin
    exact (List.mem_filter.1 hin).1

theorem Lone.eq {m : List Elem} (h : Lone pl m) (hp : placeOf pl o.tag = some p) {y y' : Elem} (hy : y ∈ m) (ha : about p o y = true)
    (hy' : y' ∈ m) (ha' : about p o y' = true) : y' = y := by
  cases h with
  | mk here _ =>
    have h1 := find_of_apart here hp hy ha
    rw [find_of_apart here hp hy' ha'] at h1
    exact Option.some.inj h1

/-- Nothing has happened. -/
theorem undisturbed_refl {d : Device} {pl : List Place} {m : List Elem} (h : Lone pl m) : ∀ {sc : Scope} {S T : Elem},
    Undisturbed d sc pl S T m m := by
  induction h with
  | @mk pl m here sub ih =>
    intro sc S T
    refine ⟨rfl, fun _ _ _ _ _ _ _ _ _ _ _ _ hy _ => hy, fun _ _ _ _ _ _ _ _ y hy ha => ⟨y, hy, ha⟩, ?_⟩
    intro s _ k _ _ f _ p hp hk y hy ha y' hy' ha'
    obtain rfl := Lone.eq ⟨here, sub⟩ hp hy ha hy' ha'
    exact ih y' hy p (by rw [about_tag ha]; exact hp) hk

/-- What is the same is not disturbed. -/
theorem undisturbed {d : Device} {rd : Bool} {w : Prop} {opts : Opts} (hw : ¬ w) (ho : opts.replace = .merge) {sc : Scope} {S T D : Elem}
    (h : OnlyChanges d w sc S T D) : ∀ {pl : List Place} {ex : QName → QName → Bool} {m r : List Elem},
    Prefers d opts sc S T D ∨ NoOps D → Keeps ex pl D.kids m r → (∀ q q', ex q q' = false) → (∀ p ∈ pl, Everywhere Flat p.2) →
    Field d rd sc pl → Lone pl m → Lone pl r → Undisturbed d sc pl S T m r := by
  induction h with
  | replaced h => exact absurd h hw
  | @same sc S T D hsame keys =>
    intro pl ex m r hP hK hx hfl hF hm hr
    have far : ∀ s ∈ S.kids, ∀ k ∈ T.kids, SameInstance d sc s k → ∀ f, d.lookup sc k.tag = .ok f → ¬ Repeated f →
        ∀ p, placeOf pl s.tag = some p → ∀ y ∈ m, about p s y = true → y ∈ r := by
      intro s _ k _ hsk f hf hrep p hp y hy ha
      refine hK.beside' hx hy fun o hoo p' hp' => ?_
      rw [← Bool.not_eq_true]
      intro hc
      obtain ⟨_, _, g, hg, hkey, hn⟩ := keys o hoo
      rw [show o.tag = k.tag from (about_tag hc).symm.trans ((about_tag ha).trans hsk.1), hf] at hg
      obtain rfl := Except.ok.inj hg
      exact hrep (Or.inl ⟨hkey, hn⟩)
    have notKey : ∀ s ∈ S.kids, ∀ k ∈ T.kids, SameInstance d sc s k → ∀ p, placeOf pl s.tag = some p →
        p.2.info.keyword = "container" ∨ p.2.info.keyword = "list" → ∀ y ∈ m, about p s y = true → y ∈ r := by
      intro s _ k _ hsk p hp hk y hy ha
      refine hK.beside' hx hy fun o hoo p' hp' => ?_
      rw [← Bool.not_eq_true]
      intro hc
      obtain ⟨_, _, g, hg, _, hn⟩ := keys o hoo
      rw [show o.tag = s.tag from (about_tag hc).symm.trans (about_tag ha)] at hg
      obtain ⟨p1, p2, p3⟩ := placeOf_some hp
      obtain ⟨f, hf⟩ := hF.fact p1 p2 p3
      rw [hf.lookup] at hg
      obtain rfl := Except.ok.inj hg
      obtain ⟨b, hu⟩ := hf.understood
      rcases hk with hk | hk
      · have hcn : f.node.ntype = .container := hu.container.2 hk
        rw [hcn] at hn; cases hn
      · rw [hf.ntype_list hk] at hn; cases hn
    refine ⟨hK.strangers hx, fun s hs k hk hsk f hf _ hrep => far s hs k hk hsk f hf hrep,
      fun s hs k hk hsk p hp hc y hy ha => ⟨y, notKey s hs k hk hsk p hp hc y hy ha, ha⟩, ?_⟩
    intro s hs k hk hsk f hf p hp hc y hy ha y' hy' ha'
    obtain rfl := hr.eq hp (notKey s hs k hk hsk p hp hc y hy ha) ha hy' ha'
    cases hm with
    | mk _ sub => exact undisturbed_refl (sub y' hy p (by rw [about_tag ha]; exact hp) hc)
  | @level sc S T D mentioned both ih =>
    intro pl ex m r hP hK hx hfl hF hm hr
    -- the node of the delta, if any
    have near : ∀ s ∈ S.kids, ∀ k ∈ T.kids, SameInstance d sc s k → ∀ p, placeOf pl s.tag = some p → ∀ y, about p s y = true →
        ∀ o ∈ D.kids, ∀ p', placeOf pl o.tag = some p' → about p' o y = true → SameInstance d sc k o := by
      intro s _ k _ hsk p hp y ha o hoo p' hp' hc
      obtain ⟨p1, p2, p3⟩ := placeOf_some hp
      obtain ⟨g, hg⟩ := hF.fact p1 p2 p3
      have hto : o.tag = s.tag := (about_tag hc).symm.trans (about_tag ha)
      rw [hto, hp] at hp'
      obtain rfl := Option.some.inj hp'
      exact hsk.symm.trans ((hg.identity rfl hto).2 ((about_both.1 ha).2.symm.trans (about_both.1 hc).2))
    have free : ∀ s ∈ S.kids, ∀ k ∈ T.kids, SameInstance d sc s k → (¬ ∃ o ∈ D.kids, SameInstance d sc k o) →
        ∀ p, placeOf pl s.tag = some p → ∀ y ∈ m, about p s y = true → y ∈ r := by
      intro s hs k hk hsk hno p hp y hy ha
      refine hK.beside' hx hy fun o hoo p' hp' => ?_
      rw [← Bool.not_eq_true]
      exact fun hc => hno ⟨o, hoo, near s hs k hk hsk p hp y ha o hoo p' hp' hc⟩
    have toAbout : ∀ {s k o : Elem} {p : Place}, SameInstance d sc s k → SameInstance d sc k o → placeOf pl s.tag = some p →
        placeOf pl o.tag = some p ∧ ∀ y, about p o y = about p s y := by
      intro s k o p hsk hko hp
      obtain ⟨p1, p2, p3⟩ := placeOf_some hp
      obtain ⟨g, hg⟩ := hF.fact p1 p2 p3
      have hto : o.tag = s.tag := (hsk.trans hko).1.symm
      have hid := (hg.identity rfl hto).1 (hsk.trans hko)
      refine ⟨by rw [hto]; exact hp, fun y => ?_⟩
      rw [Bool.eq_iff_iff, about_both, about_both, hto, hid]
    have merged : ∀ s ∈ S.kids, ∀ k ∈ T.kids, SameInstance d sc s k → ∀ o ∈ D.kids, SameInstance d sc k o →
        ∀ f, d.lookup sc k.tag = .ok f → f.node.ntype = .container ∨ f.node.ntype = .list →
        (Prefers d opts (.node f.node) s k o ∨ NoOps o) ∧ operation o = "merge" := by
      intro s hs k hk hsk o hoo hko f hf hn
      have h1 : Prefers d opts (.node f.node) s k o ∨ NoOps o := by
        rcases hP with hP | hP
        · cases hP with
          | whole h _ _ => rw [ho] at h; cases h
          | same _ op => exact .inr (op.sub' o hoo)
          | level _ _ _ _ _ hb => exact .inl (hb s hs k hk hsk o hoo hko f hf hn)
        · exact .inr (hP.sub' o hoo)
      refine ⟨h1, ?_⟩
      have h2 : NoOp o := by
        rcases h1 with h1 | h1
        · cases h1 with
          | whole h _ _ => rw [ho] at h; cases h
          | same _ op => exact op.here'
          | level _ op _ _ _ _ => exact op
        · exact h1.here'
      unfold operation
      rw [show o.get .operation = none from h2]
    have kindOf : ∀ {s k : Elem} {p : Place} {f : Found}, SameInstance d sc s k → d.lookup sc k.tag = .ok f → placeOf pl s.tag = some p →
        p.2.info.keyword = "container" ∨ p.2.info.keyword = "list" →
        (f.node.ntype = .container ∨ f.node.ntype = .list) ∧ Field d rd (.node f.node) (places p.1 p.2.kids) := by
      intro s k p f hsk hf hp hc
      obtain ⟨p1, p2, p3⟩ := placeOf_some hp
      obtain ⟨g, hg⟩ := hF.fact p1 p2 p3
      have := hg.lookup
      rw [hsk.1, hf] at this
      obtain rfl := Except.ok.inj this
      obtain ⟨b, hu⟩ := hg.understood
      exact ⟨hc.imp hu.container.2 hg.ntype_list, hg.field⟩
    refine ⟨hK.strangers hx, fun s hs k hk hsk f hf hsame hrep p hp y hy ha => ?_, fun s hs k hk hsk p hp hc y hy ha => ?_,
      fun s hs k hk hsk f hf p hp hc y hy ha y' hy' ha' => ?_⟩
    · refine free s hs k hk hsk (fun hex => ?_) p hp y hy ha
      exact ((mentioned s hs k hk hsk f hf).1 hex).elim (fun h => h hsame) hrep
    · by_cases hex : ∃ o ∈ D.kids, SameInstance d sc k o
      · obtain ⟨o, hoo, hko⟩ := hex
        obtain ⟨p1, p2, p3⟩ := placeOf_some hp
        obtain ⟨g, hg⟩ := hF.fact p1 p2 p3
        have hgk : d.lookup sc k.tag = .ok g := by rw [← hsk.1]; exact hg.lookup
        obtain ⟨hn, _⟩ := kindOf hsk hgk hp hc
        obtain ⟨hpo, hab⟩ := toAbout hsk hko hp
        cases hK with
        | mk _ stays _ =>
          obtain ⟨y', h1, h2⟩ := stays o hoo p hpo hc (merged s hs k hk hsk o hoo hko g hgk hn).2 y hy (by rw [hab]; exact ha)
          exact ⟨y', h1, by rw [← hab]; exact h2⟩
      · exact ⟨y, free s hs k hk hsk hex p hp y hy ha, ha⟩
    · have hsubm : Lone (places p.1 p.2.kids) y.kids := by
        cases hm with
        | mk _ sub => exact sub y hy p (by rw [about_tag ha]; exact hp) hc
      by_cases hex : ∃ o ∈ D.kids, SameInstance d sc k o
      · obtain ⟨o, hoo, hko⟩ := hex
        obtain ⟨hn, hF'⟩ := kindOf hsk hf hp hc
        obtain ⟨hpo, hab⟩ := toAbout hsk hko hp
        obtain ⟨hP', hop⟩ := merged s hs k hk hsk o hoo hko f hf hn
        have hsubr : Lone (places p.1 p.2.kids) y'.kids := by
          cases hr with
          | mk _ sub => exact sub y' hy' p (by rw [about_tag ha']; exact hp) hc
        obtain ⟨p1, _, _⟩ := placeOf_some hp
        cases hK with
        | mk _ _ inside =>
          exact ih s hs k hk hsk o hoo hko f hf hn hP'
            (inside o hoo p hpo hc hop y hy (by rw [hab]; exact ha) y' hy' (by rw [hab]; exact ha'))
            (rivals_flat (hfl p p1)) (fun p' hp' => (everywhere_places (hfl p p1) p' hp').2) hF' hsubm hsubr
      · obtain rfl := hr.eq hp (free s hs k hk hsk hex p hp y hy ha) ha hy' ha'
        exact undisturbed_refl hsubm

end
end NcDiff.Compile
