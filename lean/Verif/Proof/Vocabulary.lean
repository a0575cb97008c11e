import Verif.Spec.Vocabulary
import Verif.Proof.SubCells
import Verif.Proof.Insert
import Verif.Proof.Pairing
import Verif.Model.Config
/-!
# Which operations occur in an edit-config
-/

namespace NcDiff

section
variable {d : Device} {opts : Opts} {A : Option AVal → Prop}

theorem OpsIn.here' {o : Elem} (h : OpsIn A o) : A (o.get .operation) := by cases h; assumption
theorem OpsIn.sub' {o : Elem} (h : OpsIn A o) : ∀ k ∈ o.kids, OpsIn A k := by cases h; assumption

theorem OpsIn.imp {B : Option AVal → Prop} (hAB : ∀ a, A a → B a) {o : Elem} (h : OpsIn A o) : OpsIn B o := by
  induction h with
  | mk here _ ih => exact ⟨hAB _ here, ih⟩

theorem OpsIn.setOp {o : Elem} (h : OpsIn A o) {s : String} (hs : A (some (.str s))) : OpsIn A (setOp o s) := by
  refine ⟨?_, ?_⟩
  · unfold NcDiff.setOp; rw [get_set, if_pos rfl]; exact hs
  · have : (NcDiff.setOp o s).kids = o.kids := by cases o; rfl
    rw [this]; exact h.sub'

theorem OpsIn.set {o : Elem} (h : OpsIn A o) {n : AName} (hn : n ≠ .operation) (v : AVal) : OpsIn A (o.set n v) := by
  refine ⟨?_, ?_⟩
  · rw [get_set, if_neg (Ne.symm hn)]; exact h.here'
  · have : (o.set n v).kids = o.kids := by cases o; rfl
    rw [this]; exact h.sub'

theorem OpsIn.setKids {o : Elem} (h : OpsIn A o) {l : List Elem} (hl : ∀ k ∈ l, OpsIn A k) : OpsIn A (o.setKids l) := by
  refine ⟨?_, ?_⟩
  · have : (o.setKids l).get .operation = o.get .operation := by cases o; rfl
    rw [this]; exact h.here'
  · have : (o.setKids l).kids = l := by cases o; rfl
    rw [this]; exact hl

theorem OpsIn.setText {o : Elem} (h : OpsIn A o) (t : Option String) : OpsIn A (o.setText t) := by
  cases o; exact ⟨h.here', h.sub'⟩

theorem operations_new (h0 : A none) (t : QName) (n : NsMap) : OpsIn A (Elem.new t n) :=
  ⟨h0, fun k hk => by cases hk⟩

theorem operations_noAttrs (h0 : A none) {o : Elem} (h : NoAttrs o) : OpsIn A o := by
  induction h with
  | @mk e here _ ih =>
    refine ⟨?_, ih⟩
    have : e.get .operation = none := by cases e; simp only [Elem.get]; rw [show _ = [] from here]; rfl
    rw [this]; exact h0

theorem OpsIn.mergeText {sn : SNode} {src dst r : Elem} (h : OpsIn A dst) (hm : mergeText d sn src dst = .ok r) :
    OpsIn A r := by
  unfold NcDiff.mergeText at hm
  split at hm
  · cases hm; exact h.setText _
  · split at hm
    · obtain ⟨a, _, h2⟩ := bind_ok.1 hm; cases h2; exact h.setText _
    · obtain ⟨a, _, h2⟩ := bind_ok.1 hm; cases h2; exact h.setText _
    · cases hm; exact h.setText _

theorem mapM_all {α β : Type} {f : α → Except Err β} {P : β → Prop} (hf : ∀ a b, f a = .ok b → P b) : ∀ {l : List α} {r : List β},
    l.mapM f = .ok r → ∀ b ∈ r, P b := by
  intro l
  induction l with
  | nil => intro r h; simp only [List.mapM_nil, pure, Except.pure] at h; cases h; simp
  | cons a l ih =>
    intro r h
    rw [List.mapM_cons] at h
    obtain ⟨b, h1, h2⟩ := bind_ok.1 h
    obtain ⟨s, h3, h4⟩ := bind_ok.1 h2
    cases h4
    intro c hc
    rcases List.mem_cons.1 hc with rfl | hc
    · exact hf _ _ h1
    · exact ih h3 c hc

theorem operations_keyCopies (h0 : A none) {keys : List QName} {o : Elem} {r : List Elem} (h : keyCopies keys o = .ok r) :
    ∀ k ∈ r, OpsIn A k := by
  refine mapM_all (fun k b hb => ?_) h
  split at hb
  · cases hb; exact (operations_new h0 _ _).setText _
  · cases hb

mutual
theorem operations_deleteKids (h0 : A none) (hdel : A (some (.str "delete"))) : ∀ (l : List Elem) {sn : SNode} {r : List Elem},
    deleteKids d sn l = .ok r → ∀ k ∈ r, OpsIn A k
  | [], sn, r, h => by rw [deleteKids] at h; cases h; simp
  | x :: l, sn, r, h => by
    rw [deleteKids] at h
    obtain ⟨k, h1, h2⟩ := bind_ok.1 h
    obtain ⟨ks, h3, h4⟩ := bind_ok.1 h2
    cases h4
    intro c hc
    rcases List.mem_cons.1 hc with rfl | hc
    · exact operations_deleteKid h0 hdel x h1
    · exact operations_deleteKids h0 hdel l h3 c hc
theorem operations_deleteKid (h0 : A none) (hdel : A (some (.str "delete"))) : ∀ (x : Elem) {sn : SNode} {r : Elem},
    deleteKid d sn x = .ok r → OpsIn A r
  | .mk t n a x rks, sn, r, h => by
    rw [deleteKid] at h
    obtain ⟨f, _, h2⟩ := bind_ok.1 h
    have hb := (operations_new h0 t n).setOp hdel
    split at h2
    · exact hb.mergeText h2
    · obtain ⟨ks, h3, h4⟩ := bind_ok.1 h2
      cases h4
      exact hb.setKids (operations_keyCopies h0 h3)
    · split at h2
      · obtain ⟨ks, h3, h4⟩ := bind_ok.1 h2
        cases h4
        exact (operations_new h0 t n).setKids (operations_deleteKids h0 hdel rks h3)
      · cases h2; exact hb
end

theorem operations_deleteMarker (h0 : A none) (hdel : A (some (.str opts.delete.str))) {f : Found} {o m : Elem}
    (h : deleteMarker d opts f o = .ok m) : OpsIn A m := by
  unfold deleteMarker at h
  have hb := (operations_new h0 o.tag o.nsmap).setOp hdel
  simp only at h
  split at h
  · exact hb.mergeText h
  · obtain ⟨ks, h3, h4⟩ := bind_ok.1 h
    cases h4
    exact hb.setKids (operations_keyCopies h0 h3)
  · split at h
    · rename_i hc
      obtain ⟨ks, h3, h4⟩ := bind_ok.1 h
      cases h4
      rw [hc.2] at hdel
      exact (operations_new h0 _ _).setKids (operations_deleteKids h0 hdel _ h3)
    · cases h; exact hb

mutual
theorem operations_setCreate (hcr : A (some (.str "create"))) : ∀ (e : Elem) {f : Found} {r : Elem}, OpsIn A e →
    setCreate d f e = .ok r → OpsIn A r
  | .mk t n a x ks, f, r, he, h => by
    rw [setCreate] at h
    split at h
    · obtain ⟨ks', h1, h2⟩ := bind_ok.1 h
      cases h2
      exact ⟨he.here', operations_setCreateKids hcr ks he.sub' h1⟩
    · cases h; exact he.setOp hcr
theorem operations_setCreateKids (hcr : A (some (.str "create"))) : ∀ (l : List Elem) {sn : SNode} {df : List (List Nat)} {r : List Elem},
    (∀ k ∈ l, OpsIn A k) → setCreateKids d sn df l = .ok r → ∀ k ∈ r, OpsIn A k
  | [], sn, df, r, _, h => by rw [setCreateKids] at h; cases h; simp
  | x :: l, sn, df, r, hl, h => by
    rw [setCreateKids] at h
    obtain ⟨f, _, h1⟩ := bind_ok.1 h
    have h1' : ((if f.path ∈ df then pure x else setCreate d f x) >>= fun k => setCreateKids d sn df l >>= fun ks =>
        pure (k :: ks)) = .ok r := by
      rw [← h1]; split <;> rfl
    obtain ⟨k, h2, h3⟩ := bind_ok.1 h1'
    obtain ⟨ks, h4, h5⟩ := bind_ok.1 h3
    cases h5
    intro c hc
    rcases List.mem_cons.1 hc with rfl | hc
    · split at h2
      · cases h2; exact hl x (by simp)
      · exact operations_setCreate hcr x (hl x (by simp)) h2
    · exact operations_setCreateKids hcr l (fun k hk => hl k (by simp [hk])) h4 c hc
end

/-- All cells are fine. -/
def CellsFine (A : Option AVal → Prop) (st : List Cell) : Prop := ∀ c ∈ st, OpsIn A c.2

theorem CellsFine.setCell {st : List Cell} (h : CellsFine A st) {e : Elem} (he : OpsIn A e) (i : Nat) : CellsFine A (setCell i e st) := by
  intro c hc
  unfold NcDiff.setCell at hc
  obtain ⟨x, hx, rfl⟩ := List.mem_map.1 hc
  split
  · exact he
  · exact h x hx

theorem CellsFine.removeCell {st : List Cell} (h : CellsFine A st) (i : Nat) : CellsFine A (removeCell i st) :=
  fun c hc => h c (List.mem_filter.1 hc).1

theorem CellsFine.append {st : List Cell} (h : CellsFine A st) {e : Elem} (he : OpsIn A e) : CellsFine A (st ++ [(none, e)]) := by
  intro c hc
  rcases List.mem_append.1 hc with hc | hc
  · exact h c hc
  · rw [List.mem_singleton.1 hc]; exact he

theorem CellsFine.insert {st st' : List Cell} (h : CellsFine A st) {e : Elem} (he : OpsIn A e) {p : Cell → Bool}
    (hi : insertAfterLast p (none, e) st = some st') : CellsFine A st' := by
  obtain ⟨l, x, r, rfl, _, _, rfl⟩ := insertAfterLast_some hi
  intro c hc
  simp only [List.mem_append, List.mem_cons] at hc
  rcases hc with hc | rfl | rfl | hc
  · exact h c (by simp [hc])
  · exact h c (by simp)
  · exact he
  · exact h c (by simp [hc])

theorem operations_orderItem {info : OrderInfo} {pre : Option Elem} {e r : Elem} (he : OpsIn A e)
    (h : orderItem info pre e = .ok r) : OpsIn A r := by
  unfold orderItem at h
  split at h
  · cases h; exact he.set (by decide) _
  · split at h
    · split at h
      · cases h; exact (he.set (by decide) _).set (by decide) _
      · cases h
    · obtain ⟨_, _, h2⟩ := bind_ok.1 h
      cases h2; exact (he.set (by decide) _).set (by decide) _

theorem operations_orderTag {tag : QName} {info : OrderInfo} : ∀ {st : List Cell} {pre : Option Elem} {r : List Cell}, CellsFine A st →
    orderTag tag info pre st = .ok r → CellsFine A r := by
  intro st
  induction st with
  | nil => intro pre r _ h; rw [orderTag] at h; cases h; intro c hc; cases hc
  | cons x st ih =>
    intro pre r hst h
    have hst' : CellsFine A st := fun c hc => hst c (by simp [hc])
    rw [orderTag] at h
    split at h
    · obtain ⟨e, h1, h2⟩ := bind_ok.1 h
      obtain ⟨r', h3, h4⟩ := bind_ok.1 h2
      cases h4
      intro c hc
      rcases List.mem_cons.1 hc with rfl | hc
      · exact operations_orderItem (hst x (by simp)) h1
      · exact ih hst' h3 c hc
    · obtain ⟨r', h3, h4⟩ := bind_ok.1 h
      cases h4
      intro c hc
      rcases List.mem_cons.1 hc with rfl | hc
      · exact hst _ (by simp)
      · exact ih hst' h3 c hc

theorem operations_orderAll {obu : List (QName × OrderInfo)} {st r : List Cell} (hst : CellsFine A st)
    (h : orderAll obu st = .ok r) : CellsFine A r :=
  foldlM_inv (P := CellsFine A) (fun _ _ _ _ hs h => operations_orderTag hs h) hst h

theorem cellsFine_zip {l : List Elem} (h : ∀ k ∈ l, OpsIn A k) : CellsFine A (l.zipIdx.map (fun p => (some p.2, p.1))) := by
  intro c hc
  obtain ⟨p, hp, rfl⟩ := List.mem_map.1 hc
  exact h _ (List.fst_mem_of_mem_zipIdx hp)

/-- What is allowed by the options. -/
structure Lets (opts : Opts) (A : Option AVal → Prop) : Prop where
  none : A none
  delete : A (some (.str opts.delete.str))
  replace : (opts.create = .replace ∨ opts.replace = .replace ∨ opts.diffType = .replace) → A (some (.str "replace"))
  create : opts.create = .create → opts.diffType ≠ .replace → A (some (.str "create"))

theorem lets_allows (opts : Opts) : Lets opts opts.Allows :=
  ⟨.inl rfl, .inr (.inl rfl), fun h => .inr (.inr (.inl ⟨h, rfl⟩)), fun h h' => .inr (.inr (.inr ⟨h, h', rfl⟩))⟩

theorem mem_onlyOne {α β : Type} {d : Device} {sc : Scope} {pa : α → Elem} {pb : β → Elem} {as : List α} {bs : List β}
    {g : Groups α β} (h : groupKids d sc pa pb as bs = .ok g) : (∀ a ∈ g.onlyOne, a ∈ as) ∧ ∀ p ∈ g.both, p.1 ∈ as := by
  obtain ⟨_, _, rfl⟩ := groupKids_inv h
  constructor
  · intro a ha
    simp only [groupsOf, List.mem_filter] at ha
    exact ha.1
  · intro p hp
    simp only [groupsOf, List.mem_filterMap] at hp
    obtain ⟨a, ha, h2⟩ := hp
    obtain ⟨b, _, rfl⟩ := Option.map_eq_some_iff.1 h2
    exact ha

theorem operations_configReplace (hA : Lets opts A) (hr : opts.diffType = .replace) {sc : Scope} {S T r : Elem} (hS : OpsIn A S)
    (h : configReplace d sc opts S T = .ok r) : OpsIn A r := by
  unfold configReplace at h
  obtain ⟨g, hg, h⟩ := bind_ok.1 h
  obtain ⟨s1, h1, h⟩ := bind_ok.1 h
  obtain ⟨s2, h2, h⟩ := bind_ok.1 h
  obtain ⟨s3, h3, h⟩ := bind_ok.1 h
  obtain ⟨st, h4, h⟩ := bind_ok.1 h
  cases h
  have hrep := hA.replace (.inr (.inr hr))
  obtain ⟨m1, m2⟩ := mem_onlyOne hg
  have f1 : CellsFine A s1.st := by
    refine foldlM_inv (P := fun s : SubState => CellsFine A s.st) (fun a ha s s' hs hstep => ?_) (cellsFine_zip hS.sub') h1
    unfold replaceOnlySelf at hstep
    obtain ⟨f, _, hstep⟩ := bind_ok.1 hstep
    cases hstep
    exact hs.setCell ((hS.sub' _ (List.fst_mem_of_mem_zipIdx (m1 a ha))).setOp hrep) _
  have f2 : CellsFine A s2.st := by
    refine foldlM_inv (P := fun s : SubState => CellsFine A s.st) (fun a ha s s' hs hstep => ?_) f1 h2
    unfold replaceOnlyOther at hstep
    obtain ⟨f, _, hstep⟩ := bind_ok.1 hstep
    obtain ⟨m, hm, hstep⟩ := bind_ok.1 hstep
    cases hstep
    have := operations_deleteMarker hA.none hA.delete hm
    simp only [putLast]
    cases hi : insertAfterLast (hasTag a.tag) (none, m) s.st with
    | none => exact hs.append this
    | some st => exact hs.insert this hi
  have f3 : CellsFine A s3.st := by
    refine foldlM_inv (P := fun s : SubState => CellsFine A s.st) (fun q hq s s' hs hstep => ?_) f2 h3
    have he := (hS.sub' _ (List.fst_mem_of_mem_zipIdx (m2 q hq))).setOp hrep
    unfold replaceBoth at hstep
    simp only at hstep
    obtain ⟨f, _, hstep⟩ := bind_ok.1 hstep
    split at hstep
    · obtain ⟨b, _, hstep⟩ := bind_ok.1 hstep
      repeat' split at hstep
      all_goals cases hstep
      · exact hs
      · exact hs.removeCell _
      · exact hs.setCell he _
    · split at hstep <;> cases hstep
      · exact hs.setCell he _
      · exact hs.removeCell _
    · obtain ⟨b, _, hstep⟩ := bind_ok.1 hstep
      split at hstep <;> cases hstep
      · exact hs.removeCell _
      · exact hs.setCell he _
    · obtain ⟨b, _, hstep⟩ := bind_ok.1 hstep
      repeat' split at hstep
      all_goals cases hstep
      · exact hs.setCell he _
      · exact hs.removeCell _
      · exact hs.setCell he _
    · cases hstep
  refine hS.setKids fun k hk => ?_
  obtain ⟨c, hc, rfl⟩ := List.mem_map.1 hk
  exact operations_orderAll f3 h4 c hc

theorem stripNonKeys_sub {sn : SNode} : ∀ {l r : List Elem}, stripNonKeys d sn l = .ok r → ∀ k ∈ r, k ∈ l := by
  intro l
  induction l with
  | nil => intro r h; rw [stripNonKeys] at h; cases h; simp
  | cons x l ih =>
    intro r h
    rw [stripNonKeys] at h
    obtain ⟨f, _, h⟩ := bind_ok.1 h
    obtain ⟨ks, h1, h⟩ := bind_ok.1 h
    cases h
    intro k hk
    split at hk
    · rcases List.mem_cons.1 hk with rfl | hk
      · simp
      · simp [ih h1 k hk]
    · simp [ih h1 k hk]

theorem operations_nodeSub (hA : Lets opts A) : ∀ (S : Elem) {sc : Scope} {n : Nat} {T r : Elem}, OpsIn A S →
    nodeSub d opts S sc n T = .ok r → OpsIn A r := by
  intro S
  induction S using Elem.ind with
  | h t n at' x ks ih =>
    intro sc dep T r hS h
    generalize he : Elem.mk t n at' x ks = S at *
    have hks : S.kids = ks := by rw [← he]; rfl
    rw [← hks] at ih
    rw [nodeSub_eq] at h
    unfold nodeSubBody at h
    obtain ⟨differ, hdf, h⟩ : ∃ differ, (differ = true → opts.replace = .replace) ∧ (if differ = true then pure (setOp S "replace")
      else do
        let g ← groupKids d sc (fun p => p.1.1) id (S.kids.map (fun k => (k, fun sc depth o => nodeSub d opts k sc depth o))).zipIdx T.kids
        let s ← g.onlyOne.foldlM (fun s p => subOnlySelf d sc opts s (p.1.1, p.2)) { st := S.kids.zipIdx.map (fun p => (some p.2, p.1)) }
        let s ← g.onlyTwo.foldlM (subOnlyOther d sc opts) s
        let s ← g.both.foldlM (subBoth d sc opts dep) s
        let st ← orderAll s.obu s.st
        let _ ← orderAll s.obu (T.kids.zipIdx.map (fun p => (some p.2, p.1)))
        pure (S.setKids (st.map Prod.snd)) : Except Err Elem) = .ok r := by
      cases hrp : opts.replace with
      | merge =>
        simp only [hrp] at h
        exact ⟨false, by simp, h⟩
      | replace =>
        simp only [hrp] at h
        obtain ⟨_, _, h⟩ := bind_ok.1 h
        obtain ⟨_, _, h⟩ := bind_ok.1 h
        obtain ⟨df, _, h⟩ := bind_ok.1 h
        exact ⟨df, fun _ => rfl, h⟩
    split at h
    · rename_i hd
      cases h
      exact hS.setOp (hA.replace (.inr (.inl (hdf hd))))
    obtain ⟨g, hg, h⟩ := bind_ok.1 h
    obtain ⟨s1, h1, h⟩ := bind_ok.1 h
    obtain ⟨s2, h2, h⟩ := bind_ok.1 h
    obtain ⟨s3, h3, h⟩ := bind_ok.1 h
    obtain ⟨st, h4, h⟩ := bind_ok.1 h
    obtain ⟨_, _, h⟩ := bind_ok.1 h
    cases h
    obtain ⟨m1, m2⟩ := mem_onlyOne hg
    have inKids : ∀ {a : (Elem × SubFn) × Nat}, a ∈ (S.kids.map (fun k => (k, fun sc depth o => nodeSub d opts k sc depth o))).zipIdx →
        ∃ k ∈ S.kids, a.1 = (k, fun sc depth o => nodeSub d opts k sc depth o) := by
      intro a ha
      have := List.fst_mem_of_mem_zipIdx ha
      obtain ⟨k, hk, e⟩ := List.mem_map.1 this
      exact ⟨k, hk, e.symm⟩
    have f1 : CellsFine A s1.st := by
      refine foldlM_inv (P := fun s : SubState => CellsFine A s.st) (fun a ha s s' hs hstep => ?_) (cellsFine_zip hS.sub') h1
      obtain ⟨k, hk, e⟩ := inKids (m1 a ha)
      have hk' := hS.sub' k hk
      unfold subOnlySelf at hstep
      simp only [e] at hstep
      obtain ⟨f, _, hstep⟩ := bind_ok.1 hstep
      have fin : ∀ {k'}, OpsIn A k' → (deleteMarker d opts f k >>= fun _ => (pure
          { st := setCell a.2 k' s.st, obu := noteOrder f.node s.obu, choices := noteChoice f s.choices } : Except Err SubState)) =
            .ok s' → CellsFine A s'.st := by
        intro k' hk2 hstep
        obtain ⟨_, _, hstep⟩ := bind_ok.1 hstep
        cases hstep
        exact hs.setCell hk2 _
      split at hstep
      · rename_i hd
        exact fin (hk'.setOp (hA.replace (.inr (.inr hd)))) hstep
      · rename_i hd
        split at hstep
        · rename_i hc; exact fin (hk'.setOp (hA.replace (.inl hc))) hstep
        · rename_i hc
          obtain ⟨k', hk2, hstep⟩ := bind_ok.1 hstep
          exact fin (operations_setCreate (hA.create hc hd) k hk' hk2) hstep
        · exact fin hk' hstep
    have f2 : CellsFine A s2.st := by
      refine foldlM_inv (P := fun s : SubState => CellsFine A s.st) (fun a ha s s' hs hstep => ?_) f1 h2
      have hstep' : ∃ f m, deleteMarker d opts f a = .ok m ∧ s' = { s with
          st := match insertAfterLast (hasTag a.tag) (none, m) s.st with
            | some st => st
            | none => if choiceAllows s.choices f then s.st ++ [(none, m)] else s.st
          obu := noteOrder f.node s.obu } := by
        unfold subOnlyOther at hstep
        obtain ⟨f, _, hstep⟩ := bind_ok.1 hstep
        cases hc : opts.create with
        | create =>
          simp only [hc] at hstep
          obtain ⟨_, _, hstep⟩ := bind_ok.1 hstep
          obtain ⟨m, hm, hstep⟩ := bind_ok.1 hstep
          cases hstep
          exact ⟨f, m, hm, rfl⟩
        | merge =>
          simp only [hc] at hstep
          obtain ⟨_, _, hstep⟩ := bind_ok.1 hstep
          obtain ⟨m, hm, hstep⟩ := bind_ok.1 hstep
          cases hstep
          exact ⟨f, m, hm, rfl⟩
        | replace =>
          simp only [hc] at hstep
          obtain ⟨_, _, hstep⟩ := bind_ok.1 hstep
          obtain ⟨m, hm, hstep⟩ := bind_ok.1 hstep
          cases hstep
          exact ⟨f, m, hm, rfl⟩
      obtain ⟨f, m, hm, rfl⟩ := hstep'
      have := operations_deleteMarker hA.none hA.delete hm
      simp only
      cases hi : insertAfterLast (hasTag a.tag) (none, m) s.st with
      | none =>
        simp only
        split
        · exact hs.append this
        · exact hs
      | some st => exact hs.insert this hi
    have f3 : CellsFine A s3.st := by
      refine foldlM_inv (P := fun s : SubState => CellsFine A s.st) (fun q hq s s' hs hstep => ?_) f2 h3
      obtain ⟨k, hk, e⟩ := inKids (m2 q hq)
      have hk' := hS.sub' k hk
      have inner : ∀ {sn : SNode} {e'}, subInner d opts sn dep q.1.1 q.2 = .ok e' → OpsIn A e' := by
        intro sn e' hi
        unfold subInner at hi
        simp only [e] at hi
        split at hi
        · rename_i hd
          exact operations_configReplace hA hd.1 hk' hi
        · exact ih k hk hk' hi
      unfold subBoth at hstep
      simp only at hstep
      obtain ⟨f, _, hstep⟩ := bind_ok.1 hstep
      split at hstep
      · obtain ⟨b, _, hstep⟩ := bind_ok.1 hstep
        split at hstep
        · split at hstep <;> cases hstep
          · exact hs
          · exact hs.removeCell _
        · cases hc : opts.replace <;> simp only [hc] at hstep <;> cases hstep
          · exact hs
          · simp only [e]
            exact hs.setCell (hk'.setOp (hA.replace (.inr (.inl hc)))) _
      · split at hstep <;> cases hstep
        · exact hs
        · exact hs.removeCell _
      · obtain ⟨b, _, hstep⟩ := bind_ok.1 hstep
        split at hstep
        · cases hstep; exact hs.removeCell _
        · obtain ⟨e', h5, hstep⟩ := bind_ok.1 hstep
          cases hstep
          exact hs.setCell (inner h5) _
      · obtain ⟨b, _, hstep⟩ := bind_ok.1 hstep
        split at hstep
        · split at hstep
          · obtain ⟨ks', h5, hstep⟩ := bind_ok.1 hstep
            obtain ⟨_, _, hstep⟩ := bind_ok.1 hstep
            cases hstep
            simp only [e] at h5 ⊢
            exact hs.setCell (hk'.setKids fun c hc => hk'.sub' c (stripNonKeys_sub h5 c hc)) _
          · cases hstep; exact hs.removeCell _
        · obtain ⟨e', h5, hstep⟩ := bind_ok.1 hstep
          cases hstep
          exact hs.setCell (inner h5) _
      · cases hstep
    refine hS.setKids fun k hk => ?_
    obtain ⟨c, hc, rfl⟩ := List.mem_map.1 hk
    exact operations_orderAll f3 h4 c hc

mutual
theorem operations_addAttr : ∀ (n : Nat) (e : Elem), OpsIn A e → OpsIn A (addAttrAtDepth n e)
  | 0, .mk t m a x ks, h => by rw [addAttrAtDepth]; exact h.set (by decide) _
  | n + 1, .mk t m a x ks, h => by rw [addAttrAtDepth]; exact ⟨h.here', operations_addAttrList n ks h.sub'⟩
theorem operations_addAttrList : ∀ (n : Nat) (l : List Elem), (∀ k ∈ l, OpsIn A k) → ∀ k ∈ addAttrAtDepthList n l, OpsIn A k
  | n, [], _ => by rw [addAttrAtDepthList]; simp
  | n, x :: l, h => by
    rw [addAttrAtDepthList]
    intro k hk
    rcases List.mem_cons.1 hk with rfl | hk
    · exact operations_addAttr n x (h x (by simp))
    · exact operations_addAttrList n l (fun k hk => h k (by simp [hk])) k hk
end

theorem operations_calcSub (hA : Lets opts A) {S T r : Elem} (hS : OpsIn A S) (h : calcSub d opts S T = .ok r) : OpsIn A r := by
  unfold calcSub at h
  have h' : ((if opts.diffType = .replace ∧ opts.replaceDepth = 0 then configReplace d .root opts S T
      else nodeSub d opts S .root 0 T) >>= fun r => if opts.diffType = .minimumReplace then
      pure (addAttrAtDepth (opts.replaceDepth + 1) r) else pure r) = .ok r := by
    rw [← h]; split <;> rfl
  obtain ⟨r', h1, h2⟩ := bind_ok.1 h'
  have : OpsIn A r' := by
    split at h1
    · rename_i hd
      exact operations_configReplace hA hd.1 hS h1
    · exact operations_nodeSub hA S hS h1
  split at h2 <;> cases h2
  · exact operations_addAttr _ _ this
  · exact this

theorem operations_reorderChildren {rnd : Nat → List Nat} {sc : Scope} {e r : Elem} (he : OpsIn A e)
    (h : reorderChildren d rnd sc e = .ok r) : OpsIn A r := by
  unfold reorderChildren at h
  obtain ⟨n, _, h⟩ := bind_ok.1 h
  simp only at h
  split at h
  · cases h
    refine he.setKids fun k hk => he.sub' k ?_
    simp only [List.mem_append] at hk
    rcases hk with (hk | hk) | hk
    · exact List.mem_of_mem_take hk
    · exact List.mem_of_mem_drop (List.mem_of_mem_drop hk)
    · exact List.mem_of_mem_drop (List.mem_of_mem_take hk)
  · split at h <;> cases h
    · refine he.setKids fun k hk => he.sub' k ?_
      rcases List.mem_append.1 hk with hk | hk
      · exact List.mem_of_mem_take hk
      · obtain ⟨i, _, hi⟩ := List.mem_filterMap.1 hk
        exact List.mem_of_mem_drop (List.mem_of_getElem? hi)
    · exact he

mutual
theorem operations_reorder {rnd : Nat → List Nat} : ∀ (n : Nat) (e : Elem) {sc : Scope} {r : Elem}, OpsIn A e →
    reorder d rnd sc n e = .ok r → OpsIn A r
  | 0, e, sc, r, he, h => by rw [reorder] at h; exact operations_reorderChildren he h
  | n + 1, .mk t m a x ks, sc, r, he, h => by
    rw [reorder] at h
    obtain ⟨ks', h1, h2⟩ := bind_ok.1 h
    cases h2
    exact ⟨he.here', operations_reorderKids n ks he.sub' h1⟩
theorem operations_reorderKids {rnd : Nat → List Nat} : ∀ (n : Nat) (l : List Elem) {sc : Scope} {r : List Elem},
    (∀ k ∈ l, OpsIn A k) → reorderKids d rnd sc n l = .ok r → ∀ k ∈ r, OpsIn A k
  | n, [], sc, r, _, h => by rw [reorderKids] at h; cases h; simp
  | n, x :: l, sc, r, hl, h => by
    rw [reorderKids] at h
    obtain ⟨f, _, h⟩ := bind_ok.1 h
    obtain ⟨k', h1, h⟩ := bind_ok.1 h
    obtain ⟨r', h2, h⟩ := bind_ok.1 h
    cases h
    intro k hk
    rcases List.mem_cons.1 hk with rfl | hk
    · exact operations_reorder n x (hl x (by simp)) h1
    · exact operations_reorderKids n l (fun k hk => hl k (by simp [hk])) h2 k hk
end

theorem operations_nc (hA : ∀ {o}, o = opts → Lets o A) {δ : Delta} (ho : δ.opts = opts) (hS : OpsIn A δ.dst) {x : Elem}
    (h : δ.nc d = .ok x) : OpsIn A x := by
  unfold Delta.nc at h
  obtain ⟨r, h1, h2⟩ := bind_ok.1 h
  have := operations_calcSub (hA ho) hS h1
  split at h2
  · cases h2; exact this
  · exact operations_reorder _ _ this h2

end
end NcDiff
