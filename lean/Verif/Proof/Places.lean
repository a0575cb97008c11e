import Verif.Spec.Roots
import Verif.Proof.Vocabulary
import Verif.Model.ReplaceXpath
/-!
# Sums and edit-configs have no nodes of their own
-/

namespace NcDiff

section
variable {d : Device} {opts : Opts} {U : List QName → Prop}

/-- Same tag, and no other places. -/
def Lies (r a : Elem) : Prop := r.tag = a.tag ∧ PlacesOf r a

theorem Lies.refl (a : Elem) : Lies a a := ⟨rfl, fun _ h => h⟩

theorem Lies.trans {a b c : Elem} (h : Lies a b) (h' : Lies b c) : Lies a c :=
  ⟨h.1.trans h'.1, fun p hp => h'.2 p (h.2 p hp)⟩

theorem HasPath.inv {e : Elem} {t : QName} {p : List QName} (h : HasPath e (t :: p)) : ∃ k ∈ e.kids, k.tag = t ∧ HasPath k p := by
  cases h with
  | down hk h => exact ⟨_, hk, rfl, h⟩

theorem placesOf_kids {a b : Elem} (h : ∀ k ∈ a.kids, ∃ k' ∈ b.kids, Lies k k') : PlacesOf a b := by
  intro p hp
  cases hp with
  | here => exact .here _
  | down hk hp =>
    obtain ⟨k', hk', e, hs⟩ := h _ hk
    rw [e]
    exact .down hk' (hs _ hp)

theorem lies_same {a b : Elem} (ht : a.tag = b.tag) (hk : a.kids = b.kids) : Lies a b :=
  ⟨ht, placesOf_kids fun k h => ⟨k, hk ▸ h, .refl k⟩⟩

theorem lies_setOp (e : Elem) (s : String) : Lies (setOp e s) e := lies_same rfl rfl
theorem lies_set (e : Elem) (n : AName) (v : AVal) : Lies (e.set n v) e := lies_same rfl rfl
theorem lies_setText (e : Elem) (v : Option String) : Lies (e.setText v) e := lies_same rfl rfl

theorem lies_mergeText {sn : SNode} {src dst r : Elem} (h : mergeText d sn src dst = .ok r) : Lies r dst := by
  unfold mergeText at h
  split at h
  · cases h; exact lies_setText _ _
  · split at h
    · obtain ⟨a, _, h2⟩ := bind_ok.1 h; cases h2; exact lies_setText _ _
    · obtain ⟨a, _, h2⟩ := bind_ok.1 h; cases h2; exact lies_setText _ _
    · cases h; exact lies_setText _ _

theorem lies_empty {r a : Elem} (ht : r.tag = a.tag) (hk : r.kids = []) : Lies r a :=
  ⟨ht, placesOf_kids fun k h => by rw [hk] at h; cases h⟩

theorem lies_setKids {a : Elem} {l : List Elem} (h : ∀ k ∈ l, ∃ k' ∈ a.kids, Lies k k') : Lies (a.setKids l) a :=
  ⟨rfl, placesOf_kids h⟩

theorem lies_filled {e a : Elem} {l : List Elem} (ht : e.tag = a.tag) (h : ∀ k ∈ l, ∃ k' ∈ a.kids, Lies k k') : Lies (e.setKids l) a :=
  ⟨ht, placesOf_kids h⟩

theorem find_mem {o e : Elem} {k : QName} (h : o.find k = some e) : e ∈ o.kids ∧ e.tag = k :=
  ⟨List.mem_of_find?_eq_some h, by have := List.find?_some h; simpa using this⟩

theorem lies_keyCopies {keys : List QName} {o : Elem} {r : List Elem} (h : keyCopies keys o = .ok r) :
    ∀ k ∈ r, ∃ k' ∈ o.kids, Lies k k' := by
  refine mapM_all (fun k b hb => ?_) h
  split at hb
  · rename_i e he
    cases hb
    obtain ⟨h1, h2⟩ := find_mem he
    exact ⟨e, h1, lies_empty h2.symm rfl⟩
  · cases hb

mutual
theorem lies_deleteKids : ∀ (l : List Elem) {sn : SNode} {r : List Elem},
    deleteKids d sn l = .ok r → ∀ k ∈ r, ∃ k' ∈ l, Lies k k'
  | [], sn, r, h => by rw [deleteKids] at h; cases h; simp
  | x :: l, sn, r, h => by
    rw [deleteKids] at h
    obtain ⟨k, h1, h2⟩ := bind_ok.1 h
    obtain ⟨ks, h3, h4⟩ := bind_ok.1 h2
    cases h4
    intro c hc
    rcases List.mem_cons.1 hc with rfl | hc
    · exact ⟨x, by simp, lies_deleteKid x h1⟩
    · obtain ⟨k', hk', h⟩ := lies_deleteKids l h3 c hc
      exact ⟨k', by simp [hk'], h⟩
theorem lies_deleteKid : ∀ (x : Elem) {sn : SNode} {r : Elem}, deleteKid d sn x = .ok r → Lies r x
  | .mk t n a x rks, sn, r, h => by
    rw [deleteKid] at h
    obtain ⟨f, _, h2⟩ := bind_ok.1 h
    split at h2
    · exact (lies_mergeText h2).trans (lies_empty rfl rfl)
    · obtain ⟨ks, h3, h4⟩ := bind_ok.1 h2
      cases h4
      exact lies_filled rfl (lies_keyCopies h3)
    · split at h2
      · obtain ⟨ks, h3, h4⟩ := bind_ok.1 h2
        cases h4
        exact lies_filled rfl (lies_deleteKids rks h3)
      · cases h2; exact lies_empty rfl rfl
end

theorem lies_deleteMarker {f : Found} {o m : Elem} (h : deleteMarker d opts f o = .ok m) : Lies m o := by
  unfold deleteMarker at h
  simp only at h
  split at h
  · exact (lies_mergeText h).trans (lies_empty rfl rfl)
  · obtain ⟨ks, h3, h4⟩ := bind_ok.1 h
    cases h4
    exact lies_filled rfl (lies_keyCopies h3)
  · split at h
    · obtain ⟨ks, h3, h4⟩ := bind_ok.1 h
      cases h4
      exact lies_filled rfl (lies_deleteKids _ h3)
    · cases h; exact lies_empty rfl rfl

mutual
theorem lies_setCreate : ∀ (e : Elem) {f : Found} {r : Elem}, setCreate d f e = .ok r → Lies r e
  | .mk t n a x ks, f, r, h => by
    rw [setCreate] at h
    split at h
    · obtain ⟨ks', h1, h2⟩ := bind_ok.1 h
      cases h2
      exact ⟨rfl, placesOf_kids (lies_setCreateKids ks h1)⟩
    · cases h; exact lies_setOp _ _
theorem lies_setCreateKids : ∀ (l : List Elem) {sn : SNode} {df : List (List Nat)} {r : List Elem},
    setCreateKids d sn df l = .ok r → ∀ k ∈ r, ∃ k' ∈ l, Lies k k'
  | [], sn, df, r, h => by rw [setCreateKids] at h; cases h; simp
  | x :: l, sn, df, r, h => by
    rw [setCreateKids] at h
    obtain ⟨f, _, h1⟩ := bind_ok.1 h
    have h1' : ((if f.path ∈ df then pure x else setCreate d f x) >>= fun k => setCreateKids d sn df l >>= fun ks =>
        pure (k :: ks)) = .ok r := by
      rw [← h1]; split <;> rfl
    obtain ⟨k, h2, h3⟩ := bind_ok.1 h1'
    obtain ⟨ks, h4, h5⟩ := bind_ok.1 h3
    cases h5
    intro c hc
    rcases List.mem_cons.1 hc with rfl | hc
    · refine ⟨x, by simp, ?_⟩
      split at h2
      · cases h2; exact .refl _
      · exact lies_setCreate x h2
    · obtain ⟨k', hk', h⟩ := lies_setCreateKids l h4 c hc
      exact ⟨k', by simp [hk'], h⟩
end

/-- A child whose places are among `U`, places below the parent. -/
def KidIn (U : List QName → Prop) (k : Elem) : Prop := ∀ p, HasPath k p → U (k.tag :: p)

theorem KidIn.lies {a b : Elem} (h : KidIn U a) (hl : Lies b a) : KidIn U b := by
  intro p hp
  rw [hl.1]
  exact h p (hl.2 p hp)

/-- The places of either of two nodes. -/
def Either (S T : Elem) (p : List QName) : Prop := HasPath S p ∨ HasPath T p

theorem kidIn_left {S T k : Elem} (h : k ∈ S.kids) : KidIn (Either S T) k := fun _ hp => .inl (.down h hp)
theorem kidIn_right {S T k : Elem} (h : k ∈ T.kids) : KidIn (Either S T) k := fun _ hp => .inr (.down h hp)

/-- All cells are at places of `U`. -/
def CellsIn (U : List QName → Prop) (st : List Cell) : Prop := ∀ c ∈ st, KidIn U c.2

theorem CellsIn.setCell {st : List Cell} (h : CellsIn U st) {e : Elem} (he : KidIn U e) (i : Nat) : CellsIn U (setCell i e st) := by
  intro c hc
  unfold NcDiff.setCell at hc
  obtain ⟨x, hx, rfl⟩ := List.mem_map.1 hc
  split
  · exact he
  · exact h x hx

theorem CellsIn.replaceCell {st : List Cell} (h : CellsIn U st) {e : Elem} (he : KidIn U e) (i : Nat) :
    CellsIn U (replaceCell i e st) := by
  intro c hc
  unfold NcDiff.replaceCell at hc
  obtain ⟨x, hx, rfl⟩ := List.mem_map.1 hc
  split
  · exact he
  · exact h x hx

theorem CellsIn.removeCell {st : List Cell} (h : CellsIn U st) (i : Nat) : CellsIn U (removeCell i st) :=
  fun c hc => h c (List.mem_filter.1 hc).1

theorem CellsIn.append {st : List Cell} (h : CellsIn U st) {c : Cell} (he : KidIn U c.2) : CellsIn U (st ++ [c]) := by
  intro x hx
  rcases List.mem_append.1 hx with hx | hx
  · exact h x hx
  · rw [List.mem_singleton.1 hx]; exact he

theorem CellsIn.of {st st' : List Cell} {c : Cell} (h : CellsIn U st) (he : KidIn U c.2)
    (hs : ∀ x ∈ st', x ∈ st ∨ x = c) : CellsIn U st' := by
  intro x hx
  rcases hs x hx with hx | rfl
  · exact h x hx
  · exact he

theorem insertAfterLast_mem {p : Cell → Bool} {c : Cell} {st st' : List Cell} (h : insertAfterLast p c st = some st') :
    ∀ x ∈ st', x ∈ st ∨ x = c := by
  obtain ⟨l, y, r, rfl, _, _, rfl⟩ := insertAfterLast_some h
  intro x hx
  simp only [List.mem_append, List.mem_cons] at hx ⊢
  rcases hx with hx | hx | hx | hx <;> simp [hx]

theorem insertAfter_mem {p : Cell → Bool} {c : Cell} {st st' : List Cell} (h : insertAfter p c st = some st') :
    ∀ x ∈ st', x ∈ st ∨ x = c := by
  obtain ⟨l, y, r, rfl, _, _, rfl⟩ := insertAfter_some h
  intro x hx
  simp only [List.mem_append, List.mem_cons] at hx ⊢
  rcases hx with hx | hx | hx | hx <;> simp [hx]

theorem insertBefore_mem {p : Cell → Bool} {c : Cell} {st st' : List Cell} (h : insertBefore p c st = some st') :
    ∀ x ∈ st', x ∈ st ∨ x = c := by
  obtain ⟨l, y, r, rfl, _, _, rfl⟩ := insertBefore_some h
  intro x hx
  simp only [List.mem_append, List.mem_cons] at hx ⊢
  rcases hx with hx | hx | hx | hx <;> simp [hx]

theorem CellsIn.putLast {st : List Cell} (h : CellsIn U st) {c : Cell} (he : KidIn U c.2) (t : QName) : CellsIn U (putLast t c st) := by
  unfold NcDiff.putLast
  cases hi : insertAfterLast (hasTag t) c st with
  | none => exact h.append he
  | some st' => exact h.of he (insertAfterLast_mem hi)

theorem CellsIn.putFirst {st : List Cell} (h : CellsIn U st) {c : Cell} (he : KidIn U c.2) (t : QName) : CellsIn U (putFirst t c st) := by
  unfold NcDiff.putFirst
  cases hi : insertBefore (hasTag t) c st with
  | none => exact h.append he
  | some st' => exact h.of he (insertBefore_mem hi)

theorem cellsIn_zip {l : List Elem} (h : ∀ k ∈ l, KidIn U k) : CellsIn U (l.zipIdx.map (fun p => (some p.2, p.1))) := by
  intro c hc
  obtain ⟨p, hp, rfl⟩ := List.mem_map.1 hc
  exact h _ (List.fst_mem_of_mem_zipIdx hp)

theorem lies_orderItem {info : OrderInfo} {pre : Option Elem} {e r : Elem} (h : orderItem info pre e = .ok r) : Lies r e := by
  unfold orderItem at h
  split at h
  · cases h; exact lies_set _ _ _
  · split at h
    · split at h
      · cases h; exact (lies_set _ _ _).trans (lies_set _ _ _)
      · cases h
    · obtain ⟨_, _, h2⟩ := bind_ok.1 h
      cases h2; exact (lies_set _ _ _).trans (lies_set _ _ _)

theorem CellsIn.orderTag {tag : QName} {info : OrderInfo} : ∀ {st : List Cell} {pre : Option Elem} {r : List Cell}, CellsIn U st →
    orderTag tag info pre st = .ok r → CellsIn U r := by
  intro st
  induction st with
  | nil => intro pre r _ h; rw [NcDiff.orderTag] at h; cases h; intro c hc; cases hc
  | cons x st ih =>
    intro pre r hst h
    have hst' : CellsIn U st := fun c hc => hst c (by simp [hc])
    rw [NcDiff.orderTag] at h
    split at h
    · obtain ⟨e, h1, h2⟩ := bind_ok.1 h
      obtain ⟨r', h3, h4⟩ := bind_ok.1 h2
      cases h4
      intro c hc
      rcases List.mem_cons.1 hc with rfl | hc
      · exact (hst x (by simp)).lies (lies_orderItem h1)
      · exact ih hst' h3 c hc
    · obtain ⟨r', h3, h4⟩ := bind_ok.1 h
      cases h4
      intro c hc
      rcases List.mem_cons.1 hc with rfl | hc
      · exact hst _ (by simp)
      · exact ih hst' h3 c hc

theorem CellsIn.orderAll {obu : List (QName × OrderInfo)} {st r : List Cell} (hst : CellsIn U st)
    (h : orderAll obu st = .ok r) : CellsIn U r :=
  foldlM_inv (P := CellsIn U) (fun _ _ _ _ hs h => hs.orderTag h) hst h

theorem group_mem {α β : Type} {d : Device} {sc : Scope} {pa : α → Elem} {pb : β → Elem} {as : List α} {bs : List β}
    {g : Groups α β} (h : groupKids d sc pa pb as bs = .ok g) :
    (∀ a ∈ g.onlyOne, a ∈ as) ∧ (∀ b ∈ g.onlyTwo, b ∈ bs) ∧
      ∀ p ∈ g.both, p.1 ∈ as ∧ p.2 ∈ bs ∧ (pa p.1).tag = (pb p.2).tag := by
  obtain ⟨_, _, rfl⟩ := groupKids_inv h
  refine ⟨fun a ha => ?_, fun b hb => ?_, fun p hp => ?_⟩
  · simp only [groupsOf, List.mem_filter] at ha
    exact ha.1
  · simp only [groupsOf, List.mem_filter] at hb
    exact hb.1
  · simp only [groupsOf, List.mem_filterMap] at hp
    obtain ⟨a, ha, h2⟩ := hp
    obtain ⟨b, hb, rfl⟩ := Option.map_eq_some_iff.1 h2
    refine ⟨ha, List.mem_of_find?_eq_some hb, ?_⟩
    have := List.find?_some hb
    simp only [decide_eq_true_eq] at this
    have := congrArg Prod.fst this
    rw [uid_tag, uid_tag] at this
    exact this.symm

theorem either_setKids {S T : Elem} {l : List Elem} (h : ∀ k ∈ l, KidIn (Either S T) k) : PlacesOfEither (S.setKids l) S T := by
  intro p hp
  cases hp with
  | here => exact .inl (.here _)
  | down hk hp => exact h _ hk _ hp

theorem kidIn_inner {S T k o e : Elem} (hk : k ∈ S.kids) (ho : o ∈ T.kids) (ht : k.tag = o.tag) (he : e.tag = k.tag)
    (hp : PlacesOfEither e k o) : KidIn (Either S T) e := by
  intro p h
  rcases hp p h with h | h
  · rw [he]; exact .inl (.down hk h)
  · rw [he, ht]; exact .inr (.down ho h)

theorem places_configReplace {sc : Scope} {S T r : Elem} (h : configReplace d sc opts S T = .ok r) :
    r.tag = S.tag ∧ PlacesOfEither r S T := by
  unfold configReplace at h
  obtain ⟨g, hg, h⟩ := bind_ok.1 h
  obtain ⟨s1, h1, h⟩ := bind_ok.1 h
  obtain ⟨s2, h2, h⟩ := bind_ok.1 h
  obtain ⟨s3, h3, h⟩ := bind_ok.1 h
  obtain ⟨st, h4, h⟩ := bind_ok.1 h
  cases h
  obtain ⟨m1, m2, m3⟩ := group_mem hg
  have f1 : CellsIn (Either S T) s1.st := by
    refine foldlM_inv (P := fun s : SubState => CellsIn (Either S T) s.st) (fun a ha s s' hs hstep => ?_)
      (cellsIn_zip fun k hk => kidIn_left hk) h1
    unfold replaceOnlySelf at hstep
    obtain ⟨f, _, hstep⟩ := bind_ok.1 hstep
    cases hstep
    exact hs.setCell ((kidIn_left (List.fst_mem_of_mem_zipIdx (m1 a ha))).lies (lies_setOp _ _)) _
  have f2 : CellsIn (Either S T) s2.st := by
    refine foldlM_inv (P := fun s : SubState => CellsIn (Either S T) s.st) (fun a ha s s' hs hstep => ?_) f1 h2
    unfold replaceOnlyOther at hstep
    obtain ⟨f, _, hstep⟩ := bind_ok.1 hstep
    obtain ⟨m, hm, hstep⟩ := bind_ok.1 hstep
    cases hstep
    exact hs.putLast ((kidIn_right (m2 a ha)).lies (lies_deleteMarker hm)) _
  have f3 : CellsIn (Either S T) s3.st := by
    refine foldlM_inv (P := fun s : SubState => CellsIn (Either S T) s.st) (fun q hq s s' hs hstep => ?_) f2 h3
    have he : KidIn (Either S T) (setOp q.1.1 "replace") :=
      (kidIn_left (List.fst_mem_of_mem_zipIdx (m3 q hq).1)).lies (lies_setOp _ _)
    unfold replaceBoth at hstep
    simp only at hstep
    obtain ⟨f, _, hstep⟩ := bind_ok.1 hstep
    split at hstep
    · obtain ⟨b, _, hstep⟩ := bind_ok.1 hstep
      repeat' split at hstep
      all_goals cases hstep
      · exact hs
      · exact hs.removeCell _
      · exact hs.setCell he _
    · split at hstep <;> cases hstep
      · exact hs.setCell he _
      · exact hs.removeCell _
    · obtain ⟨b, _, hstep⟩ := bind_ok.1 hstep
      split at hstep <;> cases hstep
      · exact hs.removeCell _
      · exact hs.setCell he _
    · obtain ⟨b, _, hstep⟩ := bind_ok.1 hstep
      repeat' split at hstep
      all_goals cases hstep
      · exact hs.setCell he _
      · exact hs.removeCell _
      · exact hs.setCell he _
    · cases hstep
  refine ⟨rfl, either_setKids fun k hk => ?_⟩
  obtain ⟨c, hc, rfl⟩ := List.mem_map.1 hk
  exact f3.orderAll h4 c hc

theorem places_left {r S T : Elem} (h : PlacesOf r S) : PlacesOfEither r S T := fun p hp => .inl (h p hp)

theorem places_nodeSub : ∀ (S : Elem) {sc : Scope} {n : Nat} {T r : Elem},
    nodeSub d opts S sc n T = .ok r → r.tag = S.tag ∧ PlacesOfEither r S T := by
  intro S
  induction S using Elem.ind with
  | h t n at' x ks ih =>
    intro sc dep T r h
    generalize he : Elem.mk t n at' x ks = S at *
    have hks : S.kids = ks := by rw [← he]; rfl
    rw [← hks] at ih
    rw [nodeSub_eq] at h
    unfold nodeSubBody at h
    obtain ⟨differ, h⟩ : ∃ differ, (if differ = true then pure (setOp S "replace")
      else do
        let g ← groupKids d sc (fun p => p.1.1) id (S.kids.map (fun k => (k, fun sc depth o => nodeSub d opts k sc depth o))).zipIdx T.kids
        let s ← g.onlyOne.foldlM (fun s p => subOnlySelf d sc opts s (p.1.1, p.2)) { st := S.kids.zipIdx.map (fun p => (some p.2, p.1)) }
        let s ← g.onlyTwo.foldlM (subOnlyOther d sc opts) s
        let s ← g.both.foldlM (subBoth d sc opts dep) s
        let st ← orderAll s.obu s.st
        let _ ← orderAll s.obu (T.kids.zipIdx.map (fun p => (some p.2, p.1)))
        pure (S.setKids (st.map Prod.snd)) : Except Err Elem) = .ok r := by
      cases hrp : opts.replace with
      | merge =>
        simp only [hrp] at h
        exact ⟨false, h⟩
      | replace =>
        simp only [hrp] at h
        obtain ⟨_, _, h⟩ := bind_ok.1 h
        obtain ⟨_, _, h⟩ := bind_ok.1 h
        obtain ⟨df, _, h⟩ := bind_ok.1 h
        exact ⟨df, h⟩
    split at h
    · cases h
      exact ⟨rfl, places_left (lies_setOp _ _).2⟩
    obtain ⟨g, hg, h⟩ := bind_ok.1 h
    obtain ⟨s1, h1, h⟩ := bind_ok.1 h
    obtain ⟨s2, h2, h⟩ := bind_ok.1 h
    obtain ⟨s3, h3, h⟩ := bind_ok.1 h
    obtain ⟨st, h4, h⟩ := bind_ok.1 h
    obtain ⟨_, _, h⟩ := bind_ok.1 h
    cases h
    obtain ⟨m1, m2, m3⟩ := group_mem hg
    have inKids : ∀ {a : (Elem × SubFn) × Nat}, a ∈ (S.kids.map (fun k => (k, fun sc depth o => nodeSub d opts k sc depth o))).zipIdx →
        ∃ k ∈ S.kids, a.1 = (k, fun sc depth o => nodeSub d opts k sc depth o) := by
      intro a ha
      have := List.fst_mem_of_mem_zipIdx ha
      obtain ⟨k, hk, e⟩ := List.mem_map.1 this
      exact ⟨k, hk, e.symm⟩
    have f1 : CellsIn (Either S T) s1.st := by
      refine foldlM_inv (P := fun s : SubState => CellsIn (Either S T) s.st) (fun a ha s s' hs hstep => ?_)
        (cellsIn_zip fun k hk => kidIn_left hk) h1
      obtain ⟨k, hk, e⟩ := inKids (m1 a ha)
      have hk' : KidIn (Either S T) k := kidIn_left hk
      unfold subOnlySelf at hstep
      simp only [e] at hstep
      obtain ⟨f, _, hstep⟩ := bind_ok.1 hstep
      have fin : ∀ {k'}, Lies k' k → (deleteMarker d opts f k >>= fun _ => (pure
          { st := setCell a.2 k' s.st, obu := noteOrder f.node s.obu, choices := noteChoice f s.choices } : Except Err SubState)) =
            .ok s' → CellsIn (Either S T) s'.st := by
        intro k' hk2 hstep
        obtain ⟨_, _, hstep⟩ := bind_ok.1 hstep
        cases hstep
        exact hs.setCell (hk'.lies hk2) _
      split at hstep
      · exact fin (lies_setOp _ _) hstep
      · split at hstep
        · exact fin (lies_setOp _ _) hstep
        · obtain ⟨k', hk2, hstep⟩ := bind_ok.1 hstep
          exact fin (lies_setCreate k hk2) hstep
        · exact fin (.refl _) hstep
    have f2 : CellsIn (Either S T) s2.st := by
      refine foldlM_inv (P := fun s : SubState => CellsIn (Either S T) s.st) (fun a ha s s' hs hstep => ?_) f1 h2
      have hstep' : ∃ f m, deleteMarker d opts f a = .ok m ∧ s' = { s with
          st := match insertAfterLast (hasTag a.tag) (none, m) s.st with
            | some st => st
            | none => if choiceAllows s.choices f then s.st ++ [(none, m)] else s.st
          obu := noteOrder f.node s.obu } := by
        unfold subOnlyOther at hstep
        obtain ⟨f, _, hstep⟩ := bind_ok.1 hstep
        cases hc : opts.create with
        | create =>
          simp only [hc] at hstep
          obtain ⟨_, _, hstep⟩ := bind_ok.1 hstep
          obtain ⟨m, hm, hstep⟩ := bind_ok.1 hstep
          cases hstep
          exact ⟨f, m, hm, rfl⟩
        | merge =>
          simp only [hc] at hstep
          obtain ⟨_, _, hstep⟩ := bind_ok.1 hstep
          obtain ⟨m, hm, hstep⟩ := bind_ok.1 hstep
          cases hstep
          exact ⟨f, m, hm, rfl⟩
        | replace =>
          simp only [hc] at hstep
          obtain ⟨_, _, hstep⟩ := bind_ok.1 hstep
          obtain ⟨m, hm, hstep⟩ := bind_ok.1 hstep
          cases hstep
          exact ⟨f, m, hm, rfl⟩
      obtain ⟨f, m, hm, rfl⟩ := hstep'
      have : KidIn (Either S T) m := (kidIn_right (m2 a ha)).lies (lies_deleteMarker hm)
      simp only
      cases hi : insertAfterLast (hasTag a.tag) (none, m) s.st with
      | none =>
        simp only
        split
        · exact hs.append this
        · exact hs
      | some st => exact hs.of (c := (none, m)) this (insertAfterLast_mem hi)
    have f3 : CellsIn (Either S T) s3.st := by
      refine foldlM_inv (P := fun s : SubState => CellsIn (Either S T) s.st) (fun q hq s s' hs hstep => ?_) f2 h3
      obtain ⟨k, hk, e⟩ := inKids (m3 q hq).1
      have hk' : KidIn (Either S T) k := kidIn_left hk
      have htag : k.tag = q.2.tag := by have := (m3 q hq).2.2; rw [e] at this; exact this
      have inner : ∀ {sn : SNode} {e'}, subInner d opts sn dep q.1.1 q.2 = .ok e' → KidIn (Either S T) e' := by
        intro sn e' hi
        unfold subInner at hi
        simp only [e] at hi
        split at hi
        · obtain ⟨a, b⟩ := places_configReplace hi
          exact kidIn_inner hk (m3 q hq).2.1 htag a b
        · obtain ⟨a, b⟩ := ih k hk hi
          exact kidIn_inner hk (m3 q hq).2.1 htag a b
      unfold subBoth at hstep
      simp only at hstep
      obtain ⟨f, _, hstep⟩ := bind_ok.1 hstep
      split at hstep
      · obtain ⟨b, _, hstep⟩ := bind_ok.1 hstep
        split at hstep
        · split at hstep <;> cases hstep
          · exact hs
          · exact hs.removeCell _
        · cases hc : opts.replace <;> simp only [hc] at hstep <;> cases hstep
          · exact hs
          · simp only [e]
            exact hs.setCell (hk'.lies (lies_setOp _ _)) _
      · split at hstep <;> cases hstep
        · exact hs
        · exact hs.removeCell _
      · obtain ⟨b, _, hstep⟩ := bind_ok.1 hstep
        split at hstep
        · cases hstep; exact hs.removeCell _
        · obtain ⟨e', h5, hstep⟩ := bind_ok.1 hstep
          cases hstep
          exact hs.setCell (inner h5) _
      · obtain ⟨b, _, hstep⟩ := bind_ok.1 hstep
        split at hstep
        · split at hstep
          · obtain ⟨ks', h5, hstep⟩ := bind_ok.1 hstep
            obtain ⟨_, _, hstep⟩ := bind_ok.1 hstep
            cases hstep
            simp only [e] at h5 ⊢
            exact hs.setCell (hk'.lies (lies_setKids fun c hc => ⟨c, stripNonKeys_sub h5 c hc, .refl c⟩)) _
          · cases hstep; exact hs.removeCell _
        · obtain ⟨e', h5, hstep⟩ := bind_ok.1 hstep
          cases hstep
          exact hs.setCell (inner h5) _
      · cases hstep
    refine ⟨rfl, either_setKids fun k hk => ?_⟩
    obtain ⟨c, hc, rfl⟩ := List.mem_map.1 hk
    exact f3.orderAll h4 c hc

mutual
theorem lies_addAttr : ∀ (n : Nat) (e : Elem), Lies (addAttrAtDepth n e) e
  | 0, .mk t m a x ks => by rw [addAttrAtDepth]; exact lies_set _ _ _
  | n + 1, .mk t m a x ks => by rw [addAttrAtDepth]; exact ⟨rfl, placesOf_kids (lies_addAttrList n ks)⟩
theorem lies_addAttrList : ∀ (n : Nat) (l : List Elem), ∀ k ∈ addAttrAtDepthList n l, ∃ k' ∈ l, Lies k k'
  | n, [] => by rw [addAttrAtDepthList]; simp
  | n, x :: l => by
    rw [addAttrAtDepthList]
    intro k hk
    rcases List.mem_cons.1 hk with rfl | hk
    · exact ⟨x, by simp, lies_addAttr n x⟩
    · obtain ⟨k', hk', h⟩ := lies_addAttrList n l k hk
      exact ⟨k', by simp [hk'], h⟩
end

theorem PlacesOfEither.lies {r r' S T : Elem} (h : PlacesOfEither r S T) (hl : Lies r' r) : PlacesOfEither r' S T :=
  fun p hp => h p (hl.2 p hp)

theorem places_calcSub {S T r : Elem} (h : calcSub d opts S T = .ok r) : r.tag = S.tag ∧ PlacesOfEither r S T := by
  unfold calcSub at h
  have h' : ((if opts.diffType = .replace ∧ opts.replaceDepth = 0 then configReplace d .root opts S T
      else nodeSub d opts S .root 0 T) >>= fun r => if opts.diffType = .minimumReplace then
      pure (addAttrAtDepth (opts.replaceDepth + 1) r) else pure r) = .ok r := by
    rw [← h]; split <;> rfl
  obtain ⟨r', h1, h2⟩ := bind_ok.1 h'
  have : r'.tag = S.tag ∧ PlacesOfEither r' S T := by
    split at h1
    · exact places_configReplace h1
    · exact places_nodeSub S h1
  split at h2 <;> cases h2
  · have hl := lies_addAttr (opts.replaceDepth + 1) r'
    exact ⟨hl.1.trans this.1, this.2.lies hl⟩
  · exact this

mutual
theorem lies_markNode : ∀ (sel : List (List Nat)) (e : Elem), Lies (markNode sel e) e
  | sel, .mk t m a x ks => by
    rw [markNode]
    split
    · exact ⟨rfl, placesOf_kids (lies_markKids sel 0 ks)⟩
    · exact ⟨rfl, placesOf_kids (lies_markKids sel 0 ks)⟩
theorem lies_markKids : ∀ (sel : List (List Nat)) (i : Nat) (l : List Elem), ∀ k ∈ markKids sel i l, ∃ k' ∈ l, Lies k k'
  | sel, i, [] => by rw [markKids]; simp
  | sel, i, x :: l => by
    rw [markKids]
    intro k hk
    rcases List.mem_cons.1 hk with rfl | hk
    · exact ⟨x, by simp, lies_markNode _ x⟩
    · obtain ⟨k', hk', h⟩ := lies_markKids sel (i + 1) l k hk
      exact ⟨k', by simp [hk'], h⟩
end

theorem places_calcSubXpath {sel : Elem → List (List Nat)} {S T r : Elem} (h : calcSubXpath d opts sel S T = .ok r) :
    PlacesOfEither r S T := by
  unfold calcSubXpath at h
  obtain ⟨r', h1, h⟩ := bind_ok.1 h
  cases h
  exact (places_nodeSub S h1).2.lies (lies_markNode _ _)

theorem lies_reorderChildren {rnd : Nat → List Nat} {sc : Scope} {e r : Elem} (h : reorderChildren d rnd sc e = .ok r) : Lies r e := by
  unfold reorderChildren at h
  obtain ⟨n, _, h⟩ := bind_ok.1 h
  simp only at h
  split at h
  · cases h
    refine lies_setKids fun k hk => ⟨k, ?_, .refl k⟩
    simp only [List.mem_append] at hk
    rcases hk with (hk | hk) | hk
    · exact List.mem_of_mem_take hk
    · exact List.mem_of_mem_drop (List.mem_of_mem_drop hk)
    · exact List.mem_of_mem_drop (List.mem_of_mem_take hk)
  · split at h <;> cases h
    · refine lies_setKids fun k hk => ⟨k, ?_, .refl k⟩
      rcases List.mem_append.1 hk with hk | hk
      · exact List.mem_of_mem_take hk
      · obtain ⟨i, _, hi⟩ := List.mem_filterMap.1 hk
        exact List.mem_of_mem_drop (List.mem_of_getElem? hi)
    · exact .refl _

mutual
theorem lies_reorder {rnd : Nat → List Nat} : ∀ (n : Nat) (e : Elem) {sc : Scope} {r : Elem}, reorder d rnd sc n e = .ok r → Lies r e
  | 0, e, sc, r, h => by rw [reorder] at h; exact lies_reorderChildren h
  | n + 1, .mk t m a x ks, sc, r, h => by
    rw [reorder] at h
    obtain ⟨ks', h1, h2⟩ := bind_ok.1 h
    cases h2
    exact ⟨rfl, placesOf_kids (lies_reorderKids n ks h1)⟩
theorem lies_reorderKids {rnd : Nat → List Nat} : ∀ (n : Nat) (l : List Elem) {sc : Scope} {r : List Elem},
    reorderKids d rnd sc n l = .ok r → ∀ k ∈ r, ∃ k' ∈ l, Lies k k'
  | n, [], sc, r, h => by rw [reorderKids] at h; cases h; simp
  | n, x :: l, sc, r, h => by
    rw [reorderKids] at h
    obtain ⟨f, _, h⟩ := bind_ok.1 h
    obtain ⟨k', h1, h⟩ := bind_ok.1 h
    obtain ⟨r', h2, h⟩ := bind_ok.1 h
    cases h
    intro k hk
    rcases List.mem_cons.1 hk with rfl | hk
    · exact ⟨x, by simp, lies_reorder n x h1⟩
    · obtain ⟨k', hk', h⟩ := lies_reorderKids n l h2 k hk
      exact ⟨k', by simp [hk'], h⟩
end

theorem places_nc {δ : Delta} {x : Elem} (h : δ.nc d = .ok x) : x.tag = δ.dst.tag ∧ PlacesOfEither x δ.dst δ.src := by
  unfold Delta.nc at h
  obtain ⟨r, h1, h2⟩ := bind_ok.1 h
  have := places_calcSub h1
  split at h2
  · cases h2; exact this
  · have hl := lies_reorder _ _ h2
    exact ⟨hl.1.trans this.1, this.2.lies hl⟩

/-! ## Sums -/

theorem lies_delAttrib : ∀ e : Elem, Lies e.delAttrib e := by
  apply Elem.ind
  intro t n a x ks ih
  refine ⟨rfl, placesOf_kids fun k hk => ?_⟩
  have hk' : k ∈ Elem.delAttribList ks := hk
  rw [Elem.delAttribList_eq] at hk'
  obtain ⟨k', h, rfl⟩ := List.mem_map.1 hk'
  exact ⟨k', h, ih k' h⟩

theorem CellsIn.placeNew {st st' : List Cell} (h : CellsIn U st) {sn : SNode} {an : Except Err (Cell → Bool)} {o : Elem} {c : Cell}
    (hc : KidIn U c.2) (hp : placeNew sn an o c st = .ok st') : CellsIn U st' := by
  unfold NcDiff.placeNew at hp
  split at hp
  · cases hp; exact h.putLast hc _
  · split at hp
    · cases hp; exact h.putFirst hc _
    · split at hp
      · cases hp; exact h.putLast hc _
      · split at hp
        · obtain ⟨p, _, hp⟩ := bind_ok.1 hp
          unfold orWrong at hp
          split at hp
          · rename_i hi; cases hp; exact h.of hc (insertBefore_mem hi)
          · cases hp
        · split at hp
          · obtain ⟨p, _, hp⟩ := bind_ok.1 hp
            unfold orWrong at hp
            split at hp
            · rename_i hi; cases hp; exact h.of hc (insertAfter_mem hi)
            · cases hp
          · cases hp; exact h

theorem CellsIn.moveBefore {st st' : List Cell} (h : CellsIn U st) {p : Cell → Bool} {i : Nat} {e : Elem} (he : KidIn U e)
    (hp : moveCell insertBefore p i e st = .ok st') : CellsIn U st' := by
  unfold moveCell at hp
  split at hp
  · cases hp
  · split at hp
    · cases hp; exact h
    · unfold orWrong at hp
      split at hp
      · rename_i hi; cases hp; exact (h.removeCell i).of (c := (some i, e)) he (insertBefore_mem hi)
      · cases hp

theorem CellsIn.moveAfter {st st' : List Cell} (h : CellsIn U st) {p : Cell → Bool} {i : Nat} {e : Elem} (he : KidIn U e)
    (hp : moveCell insertAfter p i e st = .ok st') : CellsIn U st' := by
  unfold moveCell at hp
  split at hp
  · cases hp
  · split at hp
    · cases hp; exact h
    · unfold orWrong at hp
      split at hp
      · rename_i hi; cases hp; exact (h.removeCell i).of (c := (some i, e)) he (insertAfter_mem hi)
      · cases hp

theorem CellsIn.placeOld {st st' : List Cell} (h : CellsIn U st) {sn : SNode} {an : Except Err (Cell → Bool)} {o : Elem} {i : Nat}
    {e : Elem} (he : KidIn U e) (hp : placeOld sn an o i e st = .ok st') : CellsIn U st' := by
  unfold NcDiff.placeOld at hp
  split at hp
  · cases hp; exact h
  · split at hp
    · split at hp
      · cases hp
      · split at hp <;> cases hp
        · exact h
        · exact (h.removeCell i).putFirst (c := (some i, e)) he _
    · split at hp
      · split at hp
        · cases hp
        · split at hp <;> cases hp
          · exact h
          · exact (h.removeCell i).putLast (c := (some i, e)) he _
      · split at hp
        · obtain ⟨p, _, hp⟩ := bind_ok.1 hp; exact h.moveBefore he hp
        · split at hp
          · obtain ⟨p, _, hp⟩ := bind_ok.1 hp; exact h.moveAfter he hp
          · cases hp; exact h

theorem lies_skeleton {keys : List QName} {o e : Elem} (h : listSkeleton keys o = .ok e) : Lies e o := by
  unfold listSkeleton at h
  obtain ⟨ks, h1, h⟩ := bind_ok.1 h
  cases h
  refine lies_filled rfl (mapM_all (fun k b hb => ?_) h1)
  split at hb
  · rename_i e he
    cases hb
    exact ⟨e, (find_mem he).1, lies_delAttrib e⟩
  · cases hb

theorem CellsIn.without {sc : Scope} {sum other o : Elem} (ho : o ∈ other.kids) {st st' : List Cell} {fn : AddFn}
    (ih : ∀ {sc : Scope} {s r : Elem}, fn sc s = .ok r → r.tag = s.tag ∧ PlacesOfEither r s o)
    (h : CellsIn (Either sum other) st)
    (hp : addWithoutPeer d sc st (o, fn) = .ok st') : CellsIn (Either sum other) st' := by
  have hko : KidIn (Either sum other) o := kidIn_right ho
  have fill : ∀ {sn e e'}, Lies e o → fn sn e = .ok e' → KidIn (Either sum other) e' := by
    intro sn e e' he hf
    obtain ⟨a, b⟩ := ih hf
    refine hko.lies ⟨a.trans he.1, fun p hp => ?_⟩
    rcases b p hp with h | h
    · exact he.2 p h
    · exact h
  unfold addWithoutPeer at hp
  simp only at hp
  split at hp
  · cases hp
  split at hp
  · cases hp; exact h
  split at hp
  · obtain ⟨f, _, hp⟩ := bind_ok.1 hp
    have hd := hko.lies (lies_delAttrib o)
    split at hp
    · cases hp; exact h.append (c := (none, o.delAttrib)) hd
    · exact h.placeNew (c := (none, o.delAttrib)) hd hp
    · split at hp
      · obtain ⟨e, h1, hp⟩ := bind_ok.1 hp
        cases hp
        exact h.append (c := (none, e)) (fill (e := Elem.new o.tag o.nsmap) (lies_empty rfl rfl) h1)
      · cases hp; exact h.append (c := (none, o.delAttrib)) hd
    · split at hp
      · obtain ⟨e, h1, hp⟩ := bind_ok.1 hp
        obtain ⟨_, _, hp⟩ := bind_ok.1 hp
        obtain ⟨e', h2, hp⟩ := bind_ok.1 hp
        exact h.placeNew (c := (none, e')) (fill (lies_skeleton h1) h2) hp
      · exact h.placeNew (c := (none, o.delAttrib)) hd hp
    · cases hp; exact h
  · cases hp

theorem cells_tree {sn : SNode} {sum other k o : Elem} (hk : k ∈ sum.kids) (ho : o ∈ other.kids) (ht : k.tag = o.tag) {fn : AddFn}
    (ih : ∀ {sc : Scope} {s r : Elem}, fn sc s = .ok r → r.tag = s.tag ∧ PlacesOfEither r s o) {i : Nat} {st : List Cell} {r : PeerResult}
    (h : CellsIn (Either sum other) st) (hp : withPeerTree sn (o, fn) i k st = .ok r) : CellsIn (Either sum other) r.st := by
  unfold withPeerTree at hp
  simp only at hp
  split at hp
  · obtain ⟨e, h1, hp⟩ := bind_ok.1 hp
    cases hp
    obtain ⟨a, b⟩ := ih h1
    exact h.setCell (kidIn_inner hk ho ht a b) _
  split at hp
  · cases hp; exact h.replaceCell ((kidIn_right ho).lies (lies_delAttrib o)) _
  split at hp
  · cases hp
  split at hp
  · cases hp; exact h.removeCell _
  · cases hp

theorem CellsIn.withPeer {sn : SNode} {sum other k o : Elem} (hk : k ∈ sum.kids) (ho : o ∈ other.kids) (ht : k.tag = o.tag) {fn : AddFn}
    (ih : ∀ {sc : Scope} {s r : Elem}, fn sc s = .ok r → r.tag = s.tag ∧ PlacesOfEither r s o) {i : Nat} {st : List Cell} {r : PeerResult}
    (h : CellsIn (Either sum other) st) (hp : withPeer d sn (o, fn) i k st = .ok r) : CellsIn (Either sum other) r.st := by
  have hkk : KidIn (Either sum other) k := kidIn_left hk
  unfold NcDiff.withPeer at hp
  split at hp
  · unfold withPeerLeaf at hp
    simp only at hp
    split at hp
    · obtain ⟨e, h1, hp⟩ := bind_ok.1 hp
      cases hp
      exact h.setCell (hkk.lies (lies_mergeText h1)) _
    split at hp
    · cases hp
    split at hp
    · cases hp; exact h.removeCell _
    · cases hp
  · unfold withPeerLeafList at hp
    simp only at hp
    split at hp
    · obtain ⟨e, h1, hp⟩ := bind_ok.1 hp
      cases hp
      exact h.placeOld hkk h1
    split at hp
    · cases hp
    split at hp
    · cases hp; exact h.removeCell _
    · cases hp
  · exact cells_tree hk ho ht ih h hp
  · unfold withPeerList at hp
    simp only at hp
    have hp' : ((if opOf o ≠ "delete" ∧ opOf o ≠ "remove" then NcDiff.placeOld sn (keyAnchor o) o i k st else pure st) >>= fun st =>
        withPeerTree sn (o, fn) i k st) = .ok r := by
      rw [← hp]; split <;> rfl
    obtain ⟨st', h1, hp⟩ := bind_ok.1 hp'
    have : CellsIn (Either sum other) st' := by
      split at h1
      · exact h.placeOld hkk h1
      · cases h1; exact h
    exact cells_tree hk ho ht ih this hp
  · cases hp; exact h

theorem places_nodeAdd : ∀ (o : Elem) {sc : Scope} {s r : Elem}, nodeAdd d o sc s = .ok r → r.tag = s.tag ∧ PlacesOfEither r s o := by
  intro o
  induction o using Elem.ind with
  | h t n at' x ks ih =>
    intro sc s r h
    generalize he : Elem.mk t n at' x ks = o at *
    have hks : o.kids = ks := by rw [← he]; rfl
    rw [← hks] at ih
    rw [nodeAdd_eq] at h
    unfold nodeAddBody at h
    obtain ⟨g, hg, h⟩ := bind_ok.1 h
    obtain ⟨s1, h1, h⟩ := bind_ok.1 h
    obtain ⟨s2, h2, h⟩ := bind_ok.1 h
    cases h
    obtain ⟨_, m2, m3⟩ := group_mem hg
    have f1 : CellsIn (Either s o) s1 := by
      refine foldlM_inv (P := CellsIn (Either s o)) (fun a ha st st' hs hstep => ?_) (cellsIn_zip fun k hk => kidIn_left hk) h1
      obtain ⟨k, hk, rfl⟩ := List.mem_map.1 (m2 a ha)
      exact CellsIn.without hk (fun hf => ih k hk hf) hs hstep
    have f2 : CellsIn (Either s o) s2 := by
      refine foldlM_inv (P := CellsIn (Either s o)) (fun q hq st st' hs hstep => ?_) f1 h2
      obtain ⟨q1, q2⟩ := q
      obtain ⟨a, b, c⟩ := m3 _ hq
      obtain ⟨k, hk, rfl⟩ := List.mem_map.1 b
      unfold addWithPeer at hstep
      obtain ⟨f, _, hstep⟩ := bind_ok.1 hstep
      obtain ⟨r, hr, hstep⟩ := bind_ok.1 hstep
      have := CellsIn.withPeer (List.fst_mem_of_mem_zipIdx a) hk c (fun hf => ih k hk hf) hs hr
      unfold finishPeer at hstep
      split at hstep
      · split at hstep <;> cases hstep
        exact this.removeCell _
      · cases hstep; exact this
    refine ⟨rfl, either_setKids fun k hk => ?_⟩
    obtain ⟨c, hc, rfl⟩ := List.mem_map.1 hk
    exact f2 c hc

/-! ## Building configs -/

mutual
theorem lies_trim : ∀ (e : Elem) {sc : Scope} {r : Elem}, trimDefaults d sc e = .ok r → Lies r e
  | .mk t n a x ks, sc, r, h => by
    rw [trimDefaults] at h
    obtain ⟨ks', h1, h⟩ := bind_ok.1 h
    cases h
    exact ⟨rfl, placesOf_kids (lies_trimKids ks h1)⟩
theorem lies_trimKids : ∀ (l : List Elem) {all : List Elem} {sc : Scope} {r : List Elem}, trimKids d sc all l = .ok r →
    ∀ k ∈ r, ∃ k' ∈ l, Lies k k'
  | [], all, sc, r, h => by rw [trimKids] at h; cases h; simp
  | x :: l, all, sc, r, h => by
    rw [trimKids] at h
    obtain ⟨f, _, h⟩ := bind_ok.1 h
    obtain ⟨k', h1, h⟩ := bind_ok.1 h
    obtain ⟨r', h2, h⟩ := bind_ok.1 h
    have hrest : ∀ k ∈ r', ∃ k' ∈ x :: l, Lies k k' := fun k hk => by
      obtain ⟨k', hk', h⟩ := lies_trimKids l h2 k hk
      exact ⟨k', by simp [hk'], h⟩
    cases h
    intro k hk
    split at hk
    · exact hrest k hk
    · rcases List.mem_cons.1 hk with rfl | hk
      · exact ⟨x, by simp, lies_trim x h1⟩
      · exact hrest k hk
end

mutual
theorem lies_validate {rd : Bool} : ∀ (e : Elem) {sn : SNode} {r : Elem}, validateNode d rd sn e = .ok r → Lies r e
  | .mk t n a x ks, sn, r, h => by
    rw [validateNode] at h
    obtain ⟨_, _, h⟩ := bind_ok.1 h
    obtain ⟨ks', h1, h⟩ := bind_ok.1 h
    cases h
    exact ⟨rfl, placesOf_kids (lies_validateKids ks h1)⟩
theorem lies_validateKids {rd : Bool} : ∀ (l : List Elem) {sc : Scope} {r : List Elem}, validateKids d rd sc l = .ok r →
    ∀ k ∈ r, ∃ k' ∈ l, Lies k k'
  | [], sc, r, h => by rw [validateKids] at h; cases h; simp
  | x :: l, sc, r, h => by
    rw [validateKids] at h
    obtain ⟨f, _, h⟩ := bind_ok.1 h
    have h' : ((if x.kids = [] then pure x else validateNode d rd f.node x) >>= fun k' => validateKids d rd sc l >>= fun r' =>
        (pure (if validateDrops rd f.node k' then r' else k' :: r') : Except Err (List Elem))) = .ok r := by
      rw [← h]; split <;> rfl
    obtain ⟨k', h1, h⟩ := bind_ok.1 h'
    obtain ⟨r', h2, h⟩ := bind_ok.1 h
    have hrest : ∀ k ∈ r', ∃ k' ∈ x :: l, Lies k k' := fun k hk => by
      obtain ⟨k', hk', h⟩ := lies_validateKids l h2 k hk
      exact ⟨k', by simp [hk'], h⟩
    cases h
    intro k hk
    split at hk
    · exact hrest k hk
    · rcases List.mem_cons.1 hk with rfl | hk
      · refine ⟨x, by simp, ?_⟩
        split at h1
        · cases h1; exact .refl _
        · exact lies_validate x h1
      · exact hrest k hk
end

theorem lies_newConfig {e r : Elem} {v rd : Bool} (h : newConfig d e v rd = .ok r) : Lies r (retrieveConfig e) := by
  unfold newConfig at h
  obtain ⟨c, h1, h⟩ := bind_ok.1 h
  have hc := lies_trim _ h1
  split at h
  · unfold validateConfig at h
    obtain ⟨_, _, h⟩ := bind_ok.1 h
    obtain ⟨ks, h2, h⟩ := bind_ok.1 h
    cases h
    exact Lies.trans (lies_setKids (lies_validateKids _ h2)) hc
  · cases h; exact hc

theorem lies_retrieve {e : Elem} (ht : e.tag = ncTag "config") : Lies (retrieveConfig e) e := by
  have h : (retrieveConfig e).kids = e.kids := by
    have : retrieveConfig e = emptyConfig.setKids e.kids := by
      unfold retrieveConfig
      simp [selectPath, ht, ncTag]
    rw [this]; rfl
  exact lies_same ht.symm h

theorem places_addElem {c x r : Elem} (ht : c.tag = ncTag "config") (h : configAddElem d c x = .ok r) : PlacesOfEither r c x := by
  unfold configAddElem at h
  obtain ⟨s, h1, h⟩ := bind_ok.1 h
  obtain ⟨a, b⟩ := places_nodeAdd _ h1
  exact b.lies ((lies_newConfig h).trans (lies_retrieve (a.trans ht)))

mutual
theorem lies_filter : ∀ (e : Elem) {sc : Scope} {sel : List (List Nat)} {r : Elem}, filterNode d sc sel e = .ok r → Lies r e
  | .mk t n a x ks, sc, sel, r, h => by
    rw [filterNode] at h
    obtain ⟨ks', h1, h⟩ := bind_ok.1 h
    cases h
    exact ⟨rfl, placesOf_kids (lies_filterKids ks h1)⟩
theorem lies_filterKids : ∀ (l : List Elem) {sc : Scope} {sel : List (List Nat)} {i : Nat} {r : List Elem},
    filterKids d sc sel i l = .ok r → ∀ k ∈ r, ∃ k' ∈ l, Lies k k'
  | [], sc, sel, i, r, h => by rw [filterKids] at h; cases h; simp
  | x :: l, sc, sel, i, r, h => by
    rw [filterKids] at h
    obtain ⟨f, _, h⟩ := bind_ok.1 h
    simp only at h
    obtain ⟨r', h2, h⟩ := bind_ok.1 h
    have hrest : ∀ k ∈ r', ∃ k' ∈ x :: l, Lies k k' := fun k hk => by
      obtain ⟨k', hk', h⟩ := lies_filterKids l h2 k hk
      exact ⟨k', by simp [hk'], h⟩
    split at h
    · cases h
      intro k hk
      rcases List.mem_cons.1 hk with rfl | hk
      · exact ⟨_, by simp, .refl _⟩
      · exact hrest k hk
    · split at h
      · cases h; exact hrest
      · obtain ⟨k', h1, h⟩ := bind_ok.1 h
        cases h
        intro k hk
        rcases List.mem_cons.1 hk with rfl | hk
        · exact ⟨x, by simp, lies_filter x h1⟩
        · exact hrest k hk
end

mutual
theorem lies_readOnly : ∀ (e : Elem) {sc : Scope} {r : Elem}, removeReadOnly d sc e = .ok r → Lies r e
  | .mk t n a x ks, sc, r, h => by
    rw [removeReadOnly] at h
    obtain ⟨ks', h1, h⟩ := bind_ok.1 h
    cases h
    exact ⟨rfl, placesOf_kids (lies_readOnlyKids ks h1)⟩
theorem lies_readOnlyKids : ∀ (l : List Elem) {sc : Scope} {r : List Elem},
    removeReadOnlyKids d sc l = .ok r → ∀ k ∈ r, ∃ k' ∈ l, Lies k k'
  | [], sc, r, h => by rw [removeReadOnlyKids] at h; cases h; simp
  | x :: l, sc, r, h => by
    rw [removeReadOnlyKids] at h
    obtain ⟨f, _, h⟩ := bind_ok.1 h
    split at h
    · intro k hk
      obtain ⟨k', hk', h⟩ := lies_readOnlyKids l h k hk
      exact ⟨k', by simp [hk'], h⟩
    · obtain ⟨k', h1, h⟩ := bind_ok.1 h
      obtain ⟨r', h2, h⟩ := bind_ok.1 h
      cases h
      intro k hk
      rcases List.mem_cons.1 hk with rfl | hk
      · exact ⟨x, by simp, lies_readOnly x h1⟩
      · obtain ⟨k', hk', h⟩ := lies_readOnlyKids l h2 k hk
        exact ⟨k', by simp [hk'], h⟩
end

end
end NcDiff
