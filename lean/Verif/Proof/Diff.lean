import Verif.Proof.LevelAdd
/-!
# Applying a delta that describes the difference: all levels
-/

namespace NcDiff

variable {ω : Prop}

/-- The delta `D` describes, at this level, how to get from `S` to `T`. -/
structure DiffBase (ω : Prop) (d : Device) (sc : Scope) (S T D : Elem) : Prop where
  vS : Valid d sc S
  nS : Deep d (NsLevel d) sc S
  vT : Valid d sc T
  vD : Valid d sc D
  lD : Deep d (DeltaLevel d) sc D
  aS : NoAttrs S
  aT : NoAttrs T
  tag : S.tag = T.tag
  value : parseTextAt d sc S = parseTextAt d sc T
  cellS : ∀ s ∈ S.kids, CellOk d sc s
  cellT : ∀ k ∈ T.kids, CellOk d sc k
  only : ∀ o ∈ D.kids, (∃ k ∈ T.kids, uid d sc k = uid d sc o) ∨ (∃ s ∈ S.kids, uid d sc s = uid d sc o)
  gone : ∀ s ∈ S.kids, (∀ k ∈ T.kids, uid d sc k ≠ uid d sc s) → ∃ m ∈ D.kids, uid d sc m = uid d sc s
  goneOp : ∀ s ∈ S.kids, (∀ k ∈ T.kids, uid d sc k ≠ uid d sc s) → ∀ m ∈ D.kids,
    uid d sc m = uid d sc s → ∀ f, d.lookup sc s.tag = .ok f →
    ((opOf m = "delete" ∨ opOf m = "remove") ∧ (f.node.isNP = true → s.kids ≠ [])) ∨
      (opOf m = "merge" ∧ f.node.isNP = true)
  new : ∀ k ∈ T.kids, (∀ s ∈ S.kids, uid d sc s ≠ uid d sc k) → ∃ o ∈ D.kids, uid d sc o = uid d sc k
  newOp : ∀ k ∈ T.kids, (∀ s ∈ S.kids, uid d sc s ≠ uid d sc k) → ∀ o ∈ D.kids,
    uid d sc o = uid d sc k → ∀ f, d.lookup sc k.tag = .ok f →
    (opOf o = "merge" ∨ opOf o = "replace" ∨ opOf o = "create") ∧
      (opOf o ≠ "merge" ∨ f.node.ntype = .leaf ∨ f.node.ntype = .leafList → o.delAttrib = k) ∧
      (opOf o ≠ "merge" → o.kids = k.kids) ∧ (opOf o = "create" → f.node.isNP = false)
  bothOp : ∀ s ∈ S.kids, ∀ k ∈ T.kids, ∀ o ∈ D.kids, uid d sc s = uid d sc k → uid d sc o = uid d sc k →
    ∀ f, d.lookup sc k.tag = .ok f →
      (f.node.ntype = .leaf → (opOf o = "merge" ∨ opOf o = "replace") ∧
        ∃ e, mergeText d f.node o s = .ok e ∧ parseText d e f.node = parseText d k f.node) ∧
      (f.node.ntype = .leafList → opOf o = "merge" ∨ opOf o = "replace") ∧
      (f.node.ntype = .container ∨ f.node.ntype = .list →
        (opOf o = "merge" ∧ (f.node.isNP = true → k.kids ≠ [])) ∨
        (opOf o = "replace" ∧ o.delAttrib = k ∧ (f.node.isNP = true → s.kids ≠ []) ∧ o.kids = k.kids))
  out : ∀ s ∈ S.kids, ∀ k ∈ T.kids, uid d sc s = uid d sc k → (∀ o ∈ D.kids, uid d sc o ≠ uid d sc k) →
    ∀ f, d.lookup sc k.tag = .ok f → SameConfig d (.node f.node) s k
  pos : ∀ o ∈ D.kids, ∀ k ∈ T.kids, uid d sc o = uid d sc k → ∀ f, d.lookup sc k.tag = .ok f →
    f.node.userOrdered = true → (f.node.ntype = .leafList ∨ f.node.ntype = .list) → PosOk d sc S T f o k
  ends : ω → ∀ t, UserOrdered d sc t → Ends d sc S T D t
  full : ∀ t, UserOrdered d sc t → (∀ k ∈ T.kids, k.tag = t → ∃ o ∈ D.kids, uid d sc o = uid d sc k) ∨
    (S.kids.map (uid d sc)).filter (fun u => u.1 = t) = targetOf d sc T t
  seq : ((D.kids.map (uid d sc)).filter (fun u => u ∈ T.kids.map (uid d sc))).Sublist
    (T.kids.map (uid d sc))
  texts : ∀ s ∈ S.kids, ∀ k ∈ T.kids, ∀ o ∈ D.kids, uid d sc s = uid d sc k → uid d sc o = uid d sc k →
    o.nsmap = k.nsmap ∧ o.text = k.text

/-- The delta `D` describes, at all levels, how to get from `S` to `T`. -/
inductive Diff (ω : Prop) (d : Device) : Scope → Elem → Elem → Elem → Prop
  | mk {sc : Scope} {S T D : Elem} (base : DiffBase ω d sc S T D)
      (gone : ∀ s ∈ S.kids, (∀ k ∈ T.kids, uid d sc k ≠ uid d sc s) → ∀ m ∈ D.kids,
        uid d sc m = uid d sc s → opOf m = "merge" → ∀ f, d.lookup sc s.tag = .ok f →
        Diff ω d (.node f.node) s (s.setKids []) m)
      (newC : ∀ k ∈ T.kids, (∀ s ∈ S.kids, uid d sc s ≠ uid d sc k) → ∀ o ∈ D.kids,
        uid d sc o = uid d sc k → opOf o = "merge" → ∀ f, d.lookup sc k.tag = .ok f →
        f.node.ntype = .container → Diff ω d (.node f.node) (Elem.new o.tag o.nsmap) k o)
      (newL : ∀ k ∈ T.kids, (∀ s ∈ S.kids, uid d sc s ≠ uid d sc k) → ∀ o ∈ D.kids,
        uid d sc o = uid d sc k → opOf o = "merge" → ∀ f, d.lookup sc k.tag = .ok f →
        f.node.ntype = .list → ∀ sk, listSkeleton f.node.keys o = .ok sk → Diff ω d (.node f.node) sk k o)
      (both : ∀ s ∈ S.kids, ∀ k ∈ T.kids, ∀ o ∈ D.kids, uid d sc s = uid d sc k →
        uid d sc o = uid d sc k → opOf o = "merge" → ∀ f, d.lookup sc k.tag = .ok f →
        f.node.ntype = .container ∨ f.node.ntype = .list → Diff ω d (.node f.node) s k o) :
      Diff ω d sc S T D

theorem Diff.base' {d : Device} {sc : Scope} {S T D : Elem} (h : Diff ω d sc S T D) : DiffBase ω d sc S T D := by
  cases h; assumption

theorem parseTextAt_eq (d : Device) (sn : SNode) (e : Elem) :
    parseTextAt d (.node sn) e = parseText d e sn := by
  unfold parseTextAt parseText
  cases e.text <;> rfl

/-- The copy of one key of an entry. -/
def skelKey (o : Elem) (k : QName) : Except Err Elem :=
  match o.find k with
  | some e => .ok e.delAttrib
  | none => .error .attributeError

theorem listSkeleton_exists {keys : List QName} {o : Elem} (h : ∀ q ∈ keys, ∃ c, o.childrenWith q = [c]) :
    ∃ sk, listSkeleton keys o = .ok sk := by
  have key : ∀ l : List QName, (∀ q ∈ l, q ∈ keys) → ∃ ks, l.mapM (skelKey o) = .ok ks := by
    intro l
    induction l with
    | nil => intro _; exact ⟨[], rfl⟩
    | cons q r ih =>
      intro hl
      obtain ⟨c, hc⟩ := h q (hl q (by simp))
      obtain ⟨ks, hks⟩ := ih (fun x hx => hl x (by simp [hx]))
      refine ⟨c.delAttrib :: ks, ?_⟩
      rw [List.mapM_cons, hks]
      simp [skelKey, find_childrenWith hc, bind, Except.bind, pure, Except.pure]
  obtain ⟨ks, hks⟩ := key keys (fun _ h => h)
  refine ⟨(Elem.new o.tag o.nsmap).setKids ks, ?_⟩
  have : listSkeleton keys o = (do
      let ks ← keys.mapM (skelKey o)
      pure ((Elem.new o.tag o.nsmap).setKids ks)) := rfl
  rw [this, hks]
  rfl

/-- A valid entry of the instance of a nameable entry is nameable. -/
theorem keyed_of {d : Device} {sc : Scope} {x k : Elem} {f : Found} (hf : d.lookup sc k.tag = .ok f)
    (hn : f.node.ntype = .list) (hkk : KidOk d f.node k) (hk : Keyed f.node k) (hxk : KidOk d f.node x)
    (hu : uid d sc x = uid d sc k)
    (hkeys : ∀ q ∈ f.node.keys, ∃ g, d.lookup (.node f.node) q = .ok g ∧ g.node.ntype = .leaf)
    (hv : Valid d (.node f.node) x) : Keyed f.node x := by
  have ht := tag_of_uid hu
  have hs := ((uid_eq_iff (by rw [ht]; exact hf) hxk hkk ht).1 hu).2 f (by rw [ht]; exact hf)
  simp only [hn] at hs
  unfold KidOk at hxk
  simp only [hn] at hxk
  unfold Keyed
  simp only [hn]
  intro q hq
  obtain ⟨c, hc⟩ := hxk.2.2.1 q hq
  obtain ⟨g, hg, hgl⟩ := hkeys q hq
  obtain ⟨hcm, hct⟩ := childrenWith_single hc
  obtain ⟨g', hg', kc⟩ := hv.shape' c hcm
  rw [hct, hg] at hg'; cases hg'
  unfold KidOk at kc
  simp only [hgl] at kc
  have h1 := hs q hq
  rw [(keyed_keyText hn hk hq).1] at h1
  simp only [keyTexts, hc, List.map_cons, List.map_nil, List.cons.injEq, and_true] at h1
  exact ⟨c, _, hc, kc.1, h1⟩

theorem same_of_leaf {d : Device} {sn : SNode} {a b : Elem} (ht : a.tag = b.tag)
    (hv : parseText d a sn = parseText d b sn) (ha : a.attrs = []) (hb : b.attrs = [])
    (ka : a.kids = []) (kb : b.kids = []) : SameConfig d (.node sn) a b := by
  refine ⟨⟨ht, ?_, by simp [ha], by simp [ka], by simp [ka], ?_⟩,
    ⟨ht.symm, ?_, by simp [hb], by simp [kb], by simp [kb], ?_⟩⟩
  · rw [parseTextAt_eq, parseTextAt_eq, hv]
  · intro x y h; exact absurd h.mem_left (by simp [ka])
  · rw [parseTextAt_eq, parseTextAt_eq, hv]
  · intro x y h; exact absurd h.mem_left (by simp [kb])

theorem cell_of_plain {d : Device} {sc : Scope} {e : Elem} {f : Found} (hf : d.lookup sc e.tag = .ok f)
    (hk : KidOk d f.node e) (h1 : f.node.ntype ≠ .leafList) (h2 : f.node.ntype ≠ .list) :
    CellOk d sc e := by
  refine ⟨f, hf, hk, fun _ => ?_⟩
  unfold Keyed
  cases hn : f.node.ntype <;> simp_all

theorem NoAttrs.here' {e : Elem} (h : NoAttrs e) : e.attrs = [] := by cases h; assumption
theorem NoAttrs.sub' {e : Elem} (h : NoAttrs e) : ∀ k ∈ e.kids, NoAttrs k := by cases h; assumption

/-- The result of a merge into an entry of the same instance can be named. -/
theorem merged_cell {d : Device} {sc : Scope} {s k o R : Elem} {f : Found}
    (hf : d.lookup sc k.tag = .ok f) (hn : f.node.ntype = .list) (hck : CellOk d sc k)
    (hkeys : KeysPlain d f o) (hRk : KidOk d f.node R) (hu : uid d sc R = uid d sc k)
    (B : DiffBase ω d (.node f.node) s k o) (hR : nodeAdd d o (.node f.node) s = .ok R) :
    CellOk d sc R := by
  obtain ⟨f', hf', kk, kd⟩ := hck
  rw [hf] at hf'; cases hf'
  have hv := (nodeAdd_valid d o (.node f.node) s R B.vS B.nS B.vD B.lD hR).1
  refine ⟨f, by rw [tag_of_uid hu]; exact hf, hRk, fun huo => ?_⟩
  exact keyed_of hf hn kk (kd huo) hRk hu
    (fun q hq => by obtain ⟨⟨g, h1, h2, _⟩, _⟩ := hkeys hn q hq; exact ⟨g, h1, h2⟩) hv

theorem Diff.level {d : Device} {sc : Scope} {S T D : Elem} (h : Diff ω d sc S T D) :
    Level ω d sc S T D ∧ ∃ R, nodeAdd d D sc S = .ok R ∧ SameW ω d sc R T := by
  induction h with
  | @mk sc S T D B gone newC newL both igone inewC inewL iboth =>
    have lD := B.lD.here'
    suffices L : Level ω d sc S T D from ⟨L, L.add⟩
    refine ⟨B.vS, B.nS.here'.2, B.vT, B.vD, lD, B.tag, B.value, B.aS.here', B.aT.here', B.cellS, B.cellT, B.only, ?_, ?_, ?_,
      B.out, B.pos, B.ends, B.seq⟩
    · -- new
      intro k hk hno
      obtain ⟨o, ho, hou⟩ := B.new k hk hno
      obtain ⟨f0, hf0, kk, _⟩ := B.cellT k hk
      refine ⟨o, ho, hou, (B.newOp k hk hno o ho hou f0 hf0).1, ?_⟩
      intro f hf
      obtain rfl : f = f0 := Except.ok.inj (hf.symm.trans hf0)
      obtain ⟨hop, hcopy, _⟩ := B.newOp k hk hno o ho hou f hf
      have hft : d.lookup sc o.tag = .ok f := by rw [tag_of_uid hou]; exact hf
      obtain ⟨f', hf', ko⟩ := lD.shape o ho
      rw [hft] at hf'; cases hf'
      have vk : Valid d (.node f.node) k := B.vT.sub' k hk f hf
      have copy : (opOf o ≠ "merge" ∨ f.node.ntype = .leaf ∨ f.node.ntype = .leafList) →
          newContent f (o, addFn d o) = .ok o.delAttrib → ∃ e, newContent f (o, addFn d o) = .ok e ∧
            CellOk d sc e ∧ SameW ω d (.node f.node) e k := by
        intro h1 h2
        refine ⟨_, h2, ?_, ?_⟩
        · rw [hcopy h1]; exact B.cellT k hk
        · rw [hcopy h1]; exact (SameConfig.refl vk).loose
      by_cases hm : opOf o = "merge"
      · cases hn : f.node.ntype with
        | leaf => exact copy (Or.inr (Or.inl hn)) (by simp [newContent, hn])
        | leafList => exact copy (Or.inr (Or.inr hn)) (by simp [newContent, hn])
        | container =>
          obtain ⟨_, R, hR, hsc⟩ := inewC k hk hno o ho hou hm f hf hn
          refine ⟨R, by simp [newContent, hn, hm, hR], ?_, hsc⟩
          have htag : R.tag = k.tag := (nodeAdd_tag hR).1.trans (tag_of_uid hou : o.tag = k.tag)
          refine cell_of_plain (f := f) (by rw [htag]; exact hf) ?_ (by rw [hn]; decide) (by rw [hn]; decide)
          unfold KidOk at kk ⊢
          simp only [hn] at kk ⊢
          exact kk
        | list =>
          have ko' := ko
          unfold KidOk at ko'
          simp only [hn] at ko'
          obtain ⟨sk, hsk⟩ := listSkeleton_exists ko'.2.2.1
          obtain ⟨_, R, hR, hsc⟩ := inewL k hk hno o ho hou hm f hf hn sk hsk
          have hnc : newContent f (o, addFn d o) = .ok R := by
            simp [newContent, hn, hm, hsk, hR, bind, Except.bind]
          refine ⟨R, hnc, ?_, hsc⟩
          obtain ⟨n1, n2, n3, _⟩ := newContent_ok hft ko (lD.keys o ho f hft) hnc
          exact merged_cell hf hn (B.cellT k hk) (lD.keys o ho f hft) n2 (n3.trans hou)
            (newL k hk hno o ho hou hm f hf hn sk hsk).base' hR
        | choice => unfold KidOk at kk; simp [hn] at kk
        | case => unfold KidOk at kk; simp [hn] at kk
        | other => unfold KidOk at kk; simp [hn] at kk
      · refine copy (Or.inl hm) ?_
        unfold newContent
        cases hn : f.node.ntype <;> simp [hm]
    · -- peer
      intro s hs k hk o ho hsu hou f hf
      obtain ⟨b1, b2, b3⟩ := B.bothOp s hs k hk o ho hsu hou f hf
      obtain ⟨f', hf', kk, kdk⟩ := B.cellT k hk
      rw [hf] at hf'; cases hf'
      have hfs : d.lookup sc s.tag = .ok f := by rw [tag_of_uid hsu]; exact hf
      have hfo : d.lookup sc o.tag = .ok f := by rw [tag_of_uid hou]; exact hf
      obtain ⟨f', hf', ks⟩ := B.vS.shape' s hs
      rw [hfs] at hf'; cases hf'
      obtain ⟨f', hf', ko⟩ := lD.shape o ho
      rw [hfo] at hf'; cases hf'
      have has := (B.aS.sub' s hs).here'
      have hak := (B.aT.sub' k hk).here'
      have vk : Valid d (.node f.node) k := B.vT.sub' k hk f hf
      have htree : f.node.ntype = .container ∨ f.node.ntype = .list →
          ∃ x e, peerTree f.node (o, addFn d o) s = .ok x ∧ x.elem s = some e ∧ CellOk d sc e ∧
            SameW ω d (.node f.node) e k := by
        intro hn
        rcases b3 hn with ⟨hop, hne⟩ | ⟨hop, hdel, hne, _⟩
        · obtain ⟨_, R, hR, hsc⟩ := iboth s hs k hk o ho hsu hou hop f hf hn
          have hnp : ¬ (R.kids = [] ∧ f.node.isNP = true) := by
            rintro ⟨h1, h2⟩
            obtain ⟨y, hy⟩ := List.exists_mem_of_ne_nil _ (hne h2)
            cases hsc.2 with
            | mk _ _ _ kids _ _ =>
              obtain ⟨z, hz, _⟩ := kids y hy
              rw [h1] at hz; simp at hz
          have hx : peerTree f.node (o, addFn d o) s = .ok (.set R) := by
            unfold peerTree
            simp [hop, hR, hnp, bind, Except.bind, pure, Except.pure]
          refine ⟨.set R, R, hx, rfl, ?_, hsc⟩
          have htag : R.tag = k.tag := (nodeAdd_tag hR).1.trans (tag_of_uid hsu)
          rcases hn with hn | hn
          · refine cell_of_plain (f := f) (by rw [htag]; exact hf) ?_ (by rw [hn]; decide) (by rw [hn]; decide)
            unfold KidOk at kk ⊢
            simp only [hn] at kk ⊢
            exact kk
          · have ks' := ks
            have ko' := ko
            unfold KidOk at ks' ko'
            simp only [hn] at ks' ko'
            have hso : SameInstance d sc s o := (uid_eq_iff hfs ks ko (tag_of_uid (hsu.trans hou.symm))).1
              (hsu.trans hou.symm)
            obtain ⟨m1, m2, _⟩ := merged_list hfo hn ko hso.1 ks'.1 (lD.keys o ho f hfo hn) (by
              intro q hq c hc
              obtain ⟨c', hc'⟩ := ks'.2.2.1 q hq
              refine ⟨c', hc', ?_⟩
              have h2 := hso.2 f hfs
              simp only [hn] at h2
              have := h2 q hq
              unfold keyTexts at this
              rw [hc, hc'] at this
              simpa using this) (B.nS.here'.2 s hs f hfs) hR
            have hRu : uid d sc R = uid d sc k :=
              ((uid_eq_iff (by rw [m2.1]; exact hfo) m1 ko m2.1).2 m2).trans hou
            exact merged_cell hf hn (B.cellT k hk) (lD.keys o ho f hfo) m1 hRu
              (both s hs k hk o ho hsu hou hop f hf (Or.inr hn)).base' hR
        · refine ⟨.repl o.delAttrib, o.delAttrib, ?_, rfl, ?_, ?_⟩
          · unfold peerTree
            have : ¬ (s.kids = [] ∧ f.node.isNP = true) := fun h => hne h.2 h.1
            simp [hop, this, pure, Except.pure]
          · rw [hdel]; exact B.cellT k hk
          · rw [hdel]; exact (SameConfig.refl vk).loose
      unfold peerContent
      cases hn : f.node.ntype with
      | leaf =>
        obtain ⟨hop, e, he, hv⟩ := b1 hn
        have hop' : opOf (o, addFn d o).1 = "merge" ∨ opOf (o, addFn d o).1 = "replace" := hop
        refine ⟨.set e, e, by simp only [hop', if_true]; simp [he, bind, Except.bind, pure, Except.pure], rfl, ?_, ?_⟩
        · obtain ⟨t, rfl⟩ := mergeText_ok he
          have htag : (s.setText t).tag = k.tag := by simpa using tag_of_uid hsu
          refine cell_of_plain (f := f) (by rw [htag]; exact hf) ?_ (by rw [hn]; decide) (by rw [hn]; decide)
          unfold KidOk at ks kk ⊢
          simp only [hn] at ks kk ⊢
          exact ⟨ks.1, by rw [hv]; exact kk.2⟩
        · obtain ⟨t, rfl⟩ := mergeText_ok he
          unfold KidOk at ks kk
          simp only [hn] at ks kk
          exact (same_of_leaf (by simpa using tag_of_uid hsu) hv has hak ks.1 kk.1).loose
      | leafList =>
        have hop := b2 hn
        have hop' : opOf (o, addFn d o).1 = "merge" ∨ opOf (o, addFn d o).1 = "replace" := hop
        refine ⟨.keep, s, by simp only [hop', if_true]; rfl, rfl, B.cellS s hs, ?_⟩
        have hso := ((uid_eq_iff hfs ks kk (tag_of_uid hsu)).1 hsu).2 f hfs
        simp only [hn] at hso
        unfold KidOk at ks kk
        simp only [hn] at ks kk
        exact (same_of_leaf (tag_of_uid hsu) hso has hak ks.1 kk.1).loose
      | container => exact htree (Or.inl hn)
      | list => exact htree (Or.inr hn)
      | choice => unfold KidOk at kk; simp [hn] at kk
      | case => unfold KidOk at kk; simp [hn] at kk
      | other => unfold KidOk at kk; simp [hn] at kk
    · -- gone
      intro s hs hno
      obtain ⟨m, hm, hmu⟩ := B.gone s hs hno
      refine ⟨m, hm, hmu, ?_⟩
      intro f hf
      obtain ⟨f', hf', ks⟩ := B.vS.shape' s hs
      rw [hf] at hf'; cases hf'
      rcases B.goneOp s hs hno m hm hmu f hf with ⟨hop, hne⟩ | ⟨hop, hnp⟩
      · refine ⟨fun _ => hop, .gone, ?_, rfl⟩
        have e1 : ¬ (opOf m = "merge") := by rcases hop with h | h <;> rw [h] <;> decide
        have e2 : ¬ (opOf m = "replace") := by rcases hop with h | h <;> rw [h] <;> decide
        have e3 : ¬ (opOf m = "create") := by rcases hop with h | h <;> rw [h] <;> decide
        have e4 : ¬ (s.kids = [] ∧ f.node.isNP = true) := fun h => hne h.2 h.1
        unfold peerContent
        cases hn : f.node.ntype with
        | leaf => simp [e1, e2, e3, hop, pure, Except.pure]
        | leafList => simp [e1, e2, e3, hop, pure, Except.pure]
        | container => simp [peerTree, e1, e2, e3, e4, hop, pure, Except.pure]
        | list => simp [peerTree, e1, e2, e3, e4, hop, pure, Except.pure]
        | choice => unfold KidOk at ks; simp [hn] at ks
        | case => unfold KidOk at ks; simp [hn] at ks
        | other => unfold KidOk at ks; simp [hn] at ks
      · have hn : f.node.ntype = .container := by
          by_contra h
          rw [notNP h] at hnp; cases hnp
        refine ⟨by rw [hn]; simp, .gone, ?_, rfl⟩
        obtain ⟨_, R, hR, hsc⟩ := igone s hs hno m hm hmu hop f hf
        have hRk : R.kids = [] := by
          cases hsc.1 with
          | mk _ _ _ kids _ _ =>
            cases hk : R.kids with
            | nil => rfl
            | cons y r =>
              obtain ⟨z, hz, _⟩ := kids y (by rw [hk]; simp)
              simp at hz
        unfold peerContent peerTree
        simp [hn, hop, hR, hRk, hnp, bind, Except.bind, pure, Except.pure]

theorem Diff.add {d : Device} {sc : Scope} {S T D : Elem} (h : Diff ω d sc S T D) :
    ∃ R, nodeAdd d D sc S = .ok R ∧ SameW ω d sc R T := h.level.2

end NcDiff
