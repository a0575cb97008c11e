import Verif.Proof.ServerLevel
import Verif.Proof.Strip
/-!
# The server: a whole difference
-/

namespace NcDiff.Compile

section
variable {d : Device} {rd : Bool}

theorem fits_nil {pl : List Place} {e : Elem} (h : e.kids = []) : Fits d pl e :=
  ⟨fun k hk => (by rw [h] at hk; cases hk), fun k hk => (by rw [h] at hk; cases hk), fun k hk => (by rw [h] at hk; cases hk)⟩

theorem Fits.sub' {pl : List Place} {e k : Elem} (h : Fits d pl e) (hk : k ∈ e.kids) {p : Place} (hp : p ∈ pl)
    (hn : Named p.1 k.tag p.2) : Fits d (places p.1 p.2.kids) k := by
  cases h with
  | mk _ _ s => exact s k hk p hp hn

/-- The keys of a new entry. -/
theorem skeleton_holds {sc : Scope} {p : Place} {q : QName} {f : Found} (hf : PlaceFact d rd sc p q f)
    (hl : p.2.info.keyword = "list") {o sk : Elem} (ko : KidOk d f.node o) (hsk : listSkeleton f.node.keys o = .ok sk)
    (hv : Valid d (.node f.node) sk) : Holds (places p.1 p.2.kids) sk.kids (keysOf p o) ∧ Fits d (places p.1 p.2.kids) sk ∧
      ∀ s ∈ sk.kids, ∀ p' ∈ places p.1 p.2.kids, Named p'.1 s.tag p'.2 → p'.2.info.keyword = "leaf" := by
  have ko' := ko
  unfold KidOk at ko'
  simp only [hf.ntype_list hl] at ko'
  have hkids : sk.kids = f.node.keys.map (fun q => ((o.find q).getD default).delAttrib) := skeleton_kids hsk ko'.2.2.1
  have htag : ∀ t ∈ f.node.keys, ∃ c, tagged t o.kids = [c] ∧ c.tag = t ∧ ((o.find t).getD default).delAttrib = c.delAttrib := by
    intro t ht
    obtain ⟨c, hc⟩ := ko'.2.2.1 t ht
    exact ⟨c, hc, (childrenWith_single hc).2, by rw [find_childrenWith hc]; rfl⟩
  have hin : ∀ s ∈ sk.kids, s.tag ∈ f.node.keys := by
    intro s hs
    rw [hkids] at hs
    obtain ⟨t, ht, rfl⟩ := List.mem_map.1 hs
    obtain ⟨c, _, h2, h3⟩ := htag t ht
    rw [h3, delAttrib_tag, h2]
    exact ht
  have hleaf : ∀ {t}, t ∈ f.node.keys → ∀ p' ∈ places p.1 p.2.kids, Named p'.1 t p'.2 → p'.2.info.keyword = "leaf" ∧ PlainType p'.2 := by
    intro t ht p' hp' hn
    obtain ⟨p2, hp2, hn2, hk2⟩ := hf.keyPlace hl t ht
    rw [hf.field.one p' hp' p2 hp2 t hn hn2]
    exact hk2
  refine ⟨holds_flat fun p' hp' hk' t hn => ?_, ⟨fun s hs => ?_,
    fun s hs p' hp' hn _ => Or.inl (hleaf (hin s hs) p' hp' hn).2, fun s hs p' hp' hn => fits_nil ?_⟩,
    fun s hs p' hp' hn => (hleaf (hin s hs) p' hp' hn).1⟩
  · by_cases ht : t ∈ f.node.keys
    · right
      have hlf := (hleaf ht p' hp' hn).1
      obtain ⟨c, h1, h2, h3⟩ := htag t ht
      obtain ⟨f', hf'⟩ := hf.field.fact hp' hn hk'
      refine ⟨hlf, c.delAttrib, .mk c.tag c.nsmap [] c.text [], ?_, ?_, valueOf_congr (delAttrib_nsmap c) (delAttrib_text c)⟩
      · refine single_of_once (by rw [hlf]; decide) (by rw [hlf]; decide) (identity_nodup hf' hv) ?_
        refine mem_tagged.2 ⟨?_, by rw [delAttrib_tag, h2]⟩
        rw [hkids, ← h3]
        exact List.mem_map_of_mem (f := fun q => ((o.find q).getD default).delAttrib) ht
      · have : tagged t (keysOf p o) = (tagged t o.kids).map fun c => .mk c.tag c.nsmap [] c.text [] := by
          unfold keysOf tagged
          rw [List.filter_map, List.filter_filter]
          refine congrArg (List.map _) (List.filter_congr fun x _ => ?_)
          rw [Bool.eq_iff_iff]
          simp only [Function.comp, Elem.tag_mk, Bool.and_eq_true, decide_eq_true_eq]
          exact ⟨fun h => of_decide_eq_true h.1, fun h => ⟨decide_eq_true h, by rw [h]; exact (hf.mem_keyNames hl).2 ht⟩⟩
        rw [this, h1]; rfl
    · left
      constructor
      · rw [List.eq_nil_iff_forall_not_mem]
        intro x hx
        obtain ⟨h1, h2⟩ := mem_tagged.1 hx
        exact ht (by rw [← h2]; exact hin x h1)
      · rw [List.eq_nil_iff_forall_not_mem]
        intro x hx
        obtain ⟨h1, h2⟩ := mem_tagged.1 hx
        obtain ⟨c, hc, rfl⟩ := List.mem_map.1 h1
        have := (List.mem_filter.1 hc).2
        rw [decide_eq_true_eq] at this
        rw [Elem.tag_mk] at h2
        rw [h2] at this
        exact ht ((hf.mem_keyNames hl).1 this)
  · obtain ⟨p2, hp2, hn2, hk2⟩ := hf.keyPlace hl _ (hin s hs)
    exact ⟨p2, hp2, hn2, by simp [DataKind, hk2.1]⟩
  · have hk' := (hleaf (hin s hs) p' hp' hn).1
    obtain ⟨f', hf'⟩ := hf.field.fact hp' hn (by simp [DataKind, hk'])
    obtain ⟨a, hu⟩ := hf'.understood
    obtain ⟨g, hg, kg⟩ := hv.shape' s hs
    rw [hf'.lookup] at hg
    cases hg
    unfold KidOk at kg
    simp only [show f'.node.ntype = .leaf from hu.leaf.2 hk'] at kg
    exact kg.1

/-- A node without attributes, put where nothing is. -/
theorem bare_serve : ∀ (k : Elem) {sc : Scope} {e : Elem} {p : Place} {f : Found}, Side d sc e → k ∈ e.kids →
    PlaceFact d rd sc p k.tag f → Fits d (places p.1 p.2.kids) k →
    (p.2.info.keyword = "container" → ∀ y, Holds (places p.1 p.2.kids) [] y →
      ∃ r, serve (places p.1 p.2.kids) k.kids y = some r ∧ Holds (places p.1 p.2.kids) k.kids r) ∧
    (p.2.info.keyword = "list" →
      ∃ r, serve (places p.1 p.2.kids) k.kids (keysOf p k) = some r ∧ Holds (places p.1 p.2.kids) k.kids r) := by
  intro k
  induction k using Elem.ind with
  | h t n a x ks ih =>
    intro sc e p f hs hk hf hfit
    generalize he : Elem.mk t n a x ks = k at *
    have hks : k.kids = ks := by rw [← he]; rfl
    rw [← hks] at ih
    obtain ⟨b, hu⟩ := hf.understood
    have hsk := hs.sub hk hf.lookup
    have N : NewOk False d sc f k k := new_self k hs hk hf.lookup
    have hop : opOf k = "merge" := opOf_bare hsk.bare.here'
    have hinj : ∀ x ∈ k.kids, ∀ y ∈ k.kids, uid d (.node f.node) x = uid d (.node f.node) y → x = y :=
      fun x hx y hy h => List.inj_on_of_nodup_map hsk.valid.indexable.nodup hx hy h
    have fr : ∀ k' ∈ k.kids, ∀ o ∈ k.kids, uid d (.node f.node) o = uid d (.node f.node) k' →
        ∀ p' ∈ places p.1 p.2.kids, Named p'.1 k'.tag p'.2 → p'.2.info.keyword = "container" → ∀ y,
        Holds (places p'.1 p'.2.kids) [] y →
        ∃ r, serve (places p'.1 p'.2.kids) o.kids y = some r ∧ Holds (places p'.1 p'.2.kids) k'.kids r := by
      intro k' hk' o ho hu' p' hp' hn hc
      rw [hinj o ho k' hk' hu']
      obtain ⟨f', hf'⟩ := hf.field.fact hp' hn (by simp [DataKind, hc])
      exact (ih k' hk' hsk hk' hf' (hfit.sub' hk' hp' hn)).1 hc
    have en : ∀ k' ∈ k.kids, ∀ o ∈ k.kids, uid d (.node f.node) o = uid d (.node f.node) k' →
        ∀ p' ∈ places p.1 p.2.kids, Named p'.1 k'.tag p'.2 → p'.2.info.keyword = "list" →
        ∃ r, serve (places p'.1 p'.2.kids) o.kids (keysOf p' o) = some r ∧ Holds (places p'.1 p'.2.kids) k'.kids r := by
      intro k' hk' o ho hu' p' hp' hn hc
      rw [hinj o ho k' hk' hu']
      obtain ⟨f', hf'⟩ := hf.field.fact hp' hn (by simp [DataKind, hc])
      exact (ih k' hk' hsk hk' hf' (hfit.sub' hk' hp' hn)).2 hc
    refine ⟨fun hc y hy => ?_, fun hc => ?_⟩
    · have hD := N.cont hop (hu.container.2 hc)
      refine level_serve hD.base' hf.field (fits_nil rfl) hfit ⟨?_, ?_, ?_, ?_⟩ hy
      · intro s hs'; cases hs'
      · intro k' hk' o ho hu' _; exact fr k' hk' o ho hu'
      · intro k' hk' o ho hu' _; exact en k' hk' o ho hu'
      · intro s hs'; cases hs'
    · have hkid := hs.kid hk hf.lookup
      have hkid' := hkid
      unfold KidOk at hkid'
      simp only [hf.ntype_list hc] at hkid'
      obtain ⟨sk, hske⟩ := listSkeleton_exists hkid'.2.2.1
      have hD := N.list hop (hf.ntype_list hc) sk hske
      obtain ⟨h1, h2, h3⟩ := skeleton_holds hf hc hkid hske hD.base'.vS
      refine level_serve hD.base' hf.field h2 hfit ⟨?_, ?_, ?_, ?_⟩ h1
      · intro s hs' _ o _ _ _ p' hp' hn hcc
        rw [h3 s hs' p' hp' hn] at hcc
        exact absurd hcc (by decide)
      · intro k' hk' o ho hu' _; exact fr k' hk' o ho hu'
      · intro k' hk' o ho hu' _; exact en k' hk' o ho hu'
      · intro s hs' k' hk' o _ hsk' _ _ p' hp' hn hcc
        have := h3 s hs' p' hp' (by rw [tag_of_uid hsk']; exact hn)
        rw [this] at hcc
        exact absurd hcc (by decide)

/-- A server that holds the source and gets the difference holds the target. -/
theorem diff_serve {ω : Prop} {sc : Scope} {S T D : Elem} (h : Diff ω d sc S T D) : ∀ {pl : List Place}, Field d rd sc pl →
    Fits d pl S → Fits d pl T → (Side d sc T ∨ T.kids = []) → ∀ {m : List Elem}, Holds pl S.kids m →
    ∃ r, serve pl D.kids m = some r ∧ Holds pl T.kids r := by
  induction h with
  | @mk sc S T D base gone newC newL both ihg ihc ihl ihb =>
    intro pl hF fS fT hT m hm
    have side : ∀ {k}, k ∈ T.kids → Side d sc T := by
      intro k hk
      rcases hT with hT | hT
      · exact hT
      · rw [hT] at hk; cases hk
    have whole : ∀ k ∈ T.kids, ∀ o ∈ D.kids, uid d sc o = uid d sc k → opOf o ≠ "merge" → ∀ f, d.lookup sc k.tag = .ok f →
        f.node.ntype = .container ∨ f.node.ntype = .list → o.kids = k.kids := by
      intro k hk o ho hok hop f hf hn
      by_cases hS : ∃ s ∈ S.kids, uid d sc s = uid d sc k
      · obtain ⟨s, hs, hsk⟩ := hS
        rcases (base.bothOp s hs k hk o ho hsk hok f hf).2.2 hn with h | h
        · exact absurd h.1 hop
        · exact h.2.2.2
      · exact (base.newOp k hk (fun s hs he => hS ⟨s, hs, he⟩) o ho hok f hf).2.2.1 hop
    refine level_serve base hF fS fT ⟨?_, ?_, ?_, ?_⟩ hm
    · intro s hs hno o ho hos hop p hp hn hc y hy
      obtain ⟨f, hf⟩ := hF.fact hp hn (by simp [DataKind, hc])
      have hk0 : (s.setKids []).kids = [] := Elem.kids_setKids ..
      obtain ⟨r, h1, h2⟩ := ihg s hs hno o ho hos hop f hf.lookup hf.field (fS.sub' hs hp hn) (fits_nil hk0) (Or.inr hk0) hy
      rw [hk0] at h2
      exact ⟨r, h1, h2⟩
    · intro k hk o ho hok hcase p hp hn hc y hy
      obtain ⟨f, hf⟩ := hF.fact hp hn (by simp [DataKind, hc])
      obtain ⟨b, hu⟩ := hf.understood
      by_cases hop : opOf o = "merge"
      · have hno := hcase.resolve_right fun h => h hop
        exact ihc k hk hno o ho hok hop f hf.lookup (hu.container.2 hc) hf.field (fits_nil rfl) (fT.sub' hk hp hn)
          (Or.inl ((side hk).sub hk hf.lookup)) hy
      · rw [whole k hk o ho hok hop f hf.lookup (Or.inl (hu.container.2 hc))]
        exact (bare_serve k (side hk) hk hf (fT.sub' hk hp hn)).1 hc y hy
    · intro k hk o ho hok hcase p hp hn hc
      obtain ⟨f, hf⟩ := hF.fact hp hn (by simp [DataKind, hc])
      obtain ⟨b, hu⟩ := hf.understood
      by_cases hop : opOf o = "merge"
      · have hno := hcase.resolve_right fun h => h hop
        obtain ⟨g, hg, ko⟩ := base.vD.shape' o ho
        rw [tag_of_uid hok, hf.lookup] at hg
        cases hg
        have ko' := ko
        unfold KidOk at ko'
        simp only [hf.ntype_list hc] at ko'
        obtain ⟨sk, hske⟩ := listSkeleton_exists ko'.2.2.1
        have hD := newL k hk hno o ho hok hop f hf.lookup (hf.ntype_list hc) sk hske
        obtain ⟨h1, h2, _⟩ := skeleton_holds hf hc ko hske hD.base'.vS
        exact ihl k hk hno o ho hok hop f hf.lookup (hf.ntype_list hc) sk hske hf.field h2 (fT.sub' hk hp hn)
          (Or.inl ((side hk).sub hk hf.lookup)) h1
      · have hw := whole k hk o ho hok hop f hf.lookup (Or.inr (hf.ntype_list hc))
        have : keysOf p o = keysOf p k := by unfold keysOf; rw [hw]
        rw [hw, this]
        exact (bare_serve k (side hk) hk hf (fT.sub' hk hp hn)).2 hc
    · intro s hs k hk o ho hsk hok hop p hp hn hc y hy
      obtain ⟨f, hf⟩ := hF.fact hp hn (by rcases hc with hc | hc <;> simp [DataKind, hc])
      obtain ⟨b, hu⟩ := hf.understood
      exact ihb s hs k hk o ho hsk hok hop f hf.lookup (hc.imp hu.container.2 hu.list.2) hf.field
        (fS.sub' hs hp (by rw [tag_of_uid hsk]; exact hn)) (fT.sub' hk hp hn) (Or.inl ((side hk).sub hk hf.lookup)) hy

/-! ## Attributes that are not edit-config attributes -/

theorem tagged_strip (q : QName) (l : List Elem) : tagged q (l.map strip) = (tagged q l).map strip := by
  unfold tagged
  rw [List.filter_map]
  refine congrArg (List.map _) (List.filter_congr fun x _ => ?_)
  simp only [Function.comp, strip_tag]

theorem identity_strip (p : Place) (o : Elem) : identity p (strip o) = identity p o := by
  unfold identity
  rw [strip_text, strip_kids]
  split
  · rfl
  · split
    · refine List.map_congr_left fun q _ => ?_
      rw [tagged_strip, List.map_map]
      exact List.map_congr_left fun x _ => strip_text x
    · rfl

theorem about_strip (p : Place) (o : Elem) : about p (strip o) = about p o := by
  funext y
  unfold about
  rw [strip_tag, identity_strip]

theorem anchored_strip (p : Place) (o : Elem) : anchored p (strip o) = anchored p o := by
  funext y
  unfold anchored
  rw [strip_tag, strip_nsmap, strip_get rfl, strip_get rfl]

theorem operation_strip (o : Elem) : operation (strip o) = operation o := by
  unfold operation
  rw [strip_get rfl]

theorem put_strip (p : Place) (o e : Elem) (l : List Elem) : put p (strip o) e l = put p o e l := by
  unfold put
  rw [about_strip, anchored_strip, strip_get rfl]

theorem change_strip (p : Place) (o : Elem) (i : List Elem → Option (List Elem)) (l : List Elem) :
    change p (strip o) i l = change p o i l := by
  have hk : ((strip o).kids.filter fun c => c.tag ∈ keyNames p).map (fun c => Elem.mk c.tag c.nsmap [] c.text []) =
      (o.kids.filter fun c => c.tag ∈ keyNames p).map fun c => Elem.mk c.tag c.nsmap [] c.text [] := by
    rw [strip_kids, List.filter_map, List.map_map]
    have : ((fun c : Elem => decide (c.tag ∈ keyNames p)) ∘ strip) = fun c : Elem => decide (c.tag ∈ keyNames p) := by
      funext x; simp only [Function.comp, strip_tag]
    rw [this]
    exact List.map_congr_left fun x _ => by simp only [Function.comp, strip_tag, strip_nsmap, strip_text]
  unfold change
  rw [about_strip, operation_strip, hk, strip_tag, strip_nsmap, strip_text]
  simp only [put_strip]

mutual
theorem serve_strip (pl : List Place) : ∀ (l m : List Elem), serve pl (stripList l) m = serve pl l m
  | [], m => rfl
  | o :: r, m => by
    rw [stripList, serve, serve, serveOne_strip pl o m]
    cases serveOne pl o m with
    | none => rfl
    | some m' => exact serve_strip pl r m'
theorem serveOne_strip (pl : List Place) : ∀ (o : Elem) (m : List Elem), serveOne pl (strip o) m = serveOne pl o m
  | .mk t n a x ks, m => by
    rw [serveOne, strip, serveOne]
    cases placeOf pl t with
    | none => rfl
    | some p =>
      have := change_strip p (.mk t n a x ks) (fun l' => serve (places p.1 p.2.kids) ks l') m
      rw [strip] at this
      have h : (fun l' => serve (places p.1 p.2.kids) (stripList ks) l') = fun l' => serve (places p.1 p.2.kids) ks l' := by
        funext l'; exact serve_strip _ ks l'
      simp only [h]
      exact this
end

theorem serve_addAttr (pl : List Place) (n : Nat) (D : Elem) (m : List Elem) :
    serve pl (addAttrAtDepth n D).kids m = serve pl D.kids m := by
  have h := congrArg Elem.kids (strip_addAttr D n)
  rw [strip_kids, strip_kids, ← stripList_eq, ← stripList_eq] at h
  rw [← serve_strip, h, serve_strip]

/-! ## Modules without choices and references -/

/-- What is found in such modules. -/
def ClearFound (rd : Bool) (f : Found) : Prop :=
  f.underCase = false ∧ ∃ ns s e, Made ns s e ∧ f.node = SNode.ofElem e ∧ Everywhere (Clear rd) s

/-- Only such nodes are found. -/
def ClearScope (d : Device) (rd : Bool) (sc : Scope) : Prop := ∀ q f, d.lookup sc q = .ok f → ClearFound rd f

theorem ClearFound.scope {f : Found} (h : ClearFound rd f) : ClearScope d rd (.node f.node) := by
  intro q g hg
  obtain ⟨_, ns, s, e, hm, he, hS⟩ := h
  rw [he] at hg
  have hg := lookup_nodes hg
  have hk : (SNode.ofElem e).kids = ofElems e.kids := by cases e; rw [SNode.ofElem]; rfl
  obtain ⟨_, hu⟩ := hm.understood
  have hcase : decide ((SNode.ofElem e).info.ntype = .case) = false :=
    decide_eq_false fun h => hS.here'.noChoice.2 (hu.case.1 h)
  rw [hk, hcase] at hg
  have hsub : ∀ c ∈ s.kids, Everywhere (Clear rd) c := by cases hS; assumption
  obtain ⟨h1, s', hs', e', hm', he'⟩ := simple_nodes hm.kids (fun c hc => (hsub c hc).here'.noChoice) hg
  exact ⟨h1, ns, s', e', hm', he', hsub s' hs'⟩

theorem clear_root {h : Host} {mods : List Module} (hl : Loads h mods)
    (hs : ∀ m ∈ mods, ∀ s ∈ m.kids, Everywhere (Clear rd) s) : ClearScope h.device rd .root := by
  intro q f hf
  obtain ⟨h1, m, hm, s, hsm, e, hmade, he⟩ := top_found hl (fun m hm s hsm => (hs m hm s hsm).here'.noChoice) hf
  exact ⟨h1, m.ns, s, e, hmade, he, hs m hm s hsm⟩

theorem clear_matched {us : List String} (S : Elem) : ∀ {T : Elem} {sc : Scope} {pl : List Place}, ClearScope d rd sc →
    Field d rd sc pl → Fits d pl T → Leaves (Declares us) pl S → Leaves (WithinNs us) pl T → Matched d sc S T := by
  induction S using Elem.ind with
  | h tag nsmap attrs text kids ih =>
    intro T sc pl hsc hF hT hd hw
    generalize he : Elem.mk tag nsmap attrs text kids = S at *
    have hks : S.kids = kids := by rw [← he]; rfl
    rw [← hks] at ih
    have known : ∀ k ∈ T.kids, ∀ f, d.lookup sc k.tag = .ok f → ∃ p ∈ pl, Named p.1 k.tag p.2 ∧ PlaceFact d rd sc p k.tag f := by
      intro k hk f hf
      obtain ⟨p, h1, h2, h3⟩ := hT.node' hk
      obtain ⟨g, hg⟩ := hF.fact h1 h2 h3
      have h4 := hg.lookup
      rw [hf] at h4
      cases h4
      exact ⟨p, h1, h2, hg⟩
    refine .mk ?_ ?_ ?_
    · intro s _ k _ _ _ f g hf _ hu
      rw [(hsc _ f hf).1] at hu
      cases hu
    · intro s hs k hk hsk f hf hn _
      obtain ⟨p, h1, h2, hp⟩ := known k hk f hf
      obtain ⟨_, hu⟩ := hp.understood
      have hl := hu.leaf.1 hn
      exact hp.writable hl k s.nsmap us (hT.value' hk h1 h2 hl) (hw.here' hk h1 h2 hl)
        (hd.here' hs h1 (by rw [hsk.1]; exact h2) hl)
    · intro s hs k hk hsk f hf _
      obtain ⟨p, h1, h2, hp⟩ := known k hk f hf
      exact ih s hs (hsc _ f hf).scope hp.field (hT.sub' hk h1 h2) (hd.sub' hs h1 (by rw [hsk.1]; exact h2))
        (hw.sub' hk h1 h2)

/-- The edit-config of the delta between two configs takes a server from the one to the other. -/
theorem delta_serve {h : Host} {mods : List Module} (hl : Loads h mods) (hp : ProperModules rd mods)
    (hc : ∀ m ∈ mods, ∀ s ∈ m.kids, Everywhere (Clear rd) s) {c1 c2 : Elem} (hA : AnyOrder h.device c1 c2)
    (f1 : Fits h.device (topPlaces mods) c1) (f2 : Fits h.device (topPlaces mods) c2) {opts : Opts} (hs : TopSafe opts mods) :
    ∃ δ x, newDelta h.device c1 c2 opts = .ok δ ∧ δ.nc h.device = .ok x ∧ ∀ m, Holds (topPlaces mods) c1.kids m →
      ∃ r, serve (topPlaces mods) x.kids m = some r ∧ Holds (topPlaces mods) c2.kids r := by
  obtain ⟨D, hx, _, hdiff⟩ := calcSub_ok (opts := opts) carry_deletes.carry hA.loose (fun _ => hA.src.filled)
  obtain ⟨_, hD⟩ := hdiff (rootSafe_of hl hp hs)
  refine ⟨_, _, newDelta_ok hA.src.valid.valid hA.dst.valid.valid, (by
    simp only [Delta.nc, hx, bind, Except.bind, pure, Except.pure]; rfl), fun m hm => ?_⟩
  have := diff_serve hD (field_root hl hp (regular_of_clear hc)) f1 f2 (Or.inl hA.loose.dst.side) hm
  split
  · rw [serve_addAttr]; exact this
  · exact this

end
end NcDiff.Compile
