import Verif.Proof.SubCells
import Verif.Spec.RoundTrip
/-!
# Computing a delta: marks and markers
-/

namespace NcDiff

/-! ## Schema look-up -/

mutual
theorem dataNodes_tag {tag : QName} : ∀ (l : List SNode) (pre : List Nat) (b : Bool) (i : Nat) (f : Found),
    f ∈ dataNodes tag pre b i l → f.node.tag = tag
  | [], _, _, _, f, h => by simp [dataNodes] at h
  | s :: r, pre, b, i, f, h => by
    rw [dataNodes, List.mem_append] at h
    rcases h with h | h
    · exact dataNode_tag s pre b i f h
    · exact dataNodes_tag r pre b (i + 1) f h
theorem dataNode_tag {tag : QName} : ∀ (s : SNode) (pre : List Nat) (b : Bool) (i : Nat) (f : Found),
    f ∈ dataNode tag pre b i s → f.node.tag = tag
  | .mk info kids, pre, b, i, f, h => by
    rw [dataNode] at h
    split at h
    · exact dataNodes_tag kids _ _ _ f h
    · split at h
      · exact dataNodes_tag kids _ _ _ f h
      · split at h
        · rename_i ht
          rw [List.mem_singleton] at h
          subst h
          exact ht
        · simp at h
end

theorem lookup_tag {d : Device} {sc : Scope} {t : QName} {f : Found} (h : d.lookup sc t = .ok f) :
    f.node.tag = t := by
  unfold Device.lookup at h
  have key : ∀ l : List Found, (match l with
      | [] => (.error .configError : Except Err Found)
      | [f] => .ok f
      | _ => .error .modelError) = .ok f → f ∈ l := by
    intro l hl
    match l, hl with
    | [x], hl => cases hl; simp
  cases sc with
  | node s => exact dataNodes_tag _ _ _ _ _ (key _ h)
  | root =>
    simp only at h
    cases hr : d.roots.lookup t with
    | none => simp [hr] at h
    | some m =>
      simp only [hr] at h
      cases hm : d.models.lookup m with
      | none => simp [hm] at h
      | some tree =>
        simp only [hm] at h
        exact dataNodes_tag _ _ _ _ _ (key _ h)

/-! ## One side -/

/-- A valid tree without attributes that satisfies the conditions. -/
structure Side (d : Device) (sc : Scope) (e : Elem) : Prop where
  valid : Valid d sc e
  bare : NoAttrs e
  level : Deep d (ConfLevel d) sc e

section
variable {d : Device} {sc : Scope} {e k : Elem} {f : Found}

theorem Side.sub (h : Side d sc e) (hk : k ∈ e.kids) (hf : d.lookup sc k.tag = .ok f) :
    Side d (.node f.node) k :=
  ⟨h.valid.sub' k hk f hf, h.bare.sub' k hk, h.level.sub' k hk f hf⟩

theorem Side.ns (h : Side d sc e) : Deep d (NsLevel d) sc e := h.level.imp (fun _ _ h => ⟨h.nsmap, fun k hk f hf hn q hq g hg hi c hc => by
    obtain ⟨g', hg', _, hk', _⟩ := h.keys k hk f hf hn q hq
    rw [hg] at hg'; cases hg'
    exact (hk' c hc).honest hi⟩)

theorem Side.kid (h : Side d sc e) (hk : k ∈ e.kids) (hf : d.lookup sc k.tag = .ok f) :
    KidOk d f.node k := by
  obtain ⟨g, hg, kg⟩ := h.valid.shape' k hk
  rw [hf] at hg; cases hg; exact kg

theorem Side.attrs (h : Side d sc e) (hk : k ∈ e.kids) : k.attrs = [] := (h.bare.sub' k hk).here'

theorem Side.kidNs (h : Side d sc e) (hk : k ∈ e.kids) : NsMapOk k.nsmap := by
  obtain ⟨g, hg, _⟩ := h.valid.shape' k hk
  exact (h.level.sub' k hk g hg).here'.nsmap

theorem Side.keyed (h : Side d sc e) (hk : k ∈ e.kids) (hf : d.lookup sc k.tag = .ok f)
    (hu : f.node.userOrdered = true) : Keyed f.node k := by
  have hkid := h.kid hk hf
  unfold Keyed
  cases hn : f.node.ntype <;> simp only
  · exact h.level.here'.orderedValues k hk f hf hu hn
  · intro q hq
    unfold KidOk at hkid
    simp only [hn] at hkid
    obtain ⟨c, hc⟩ := hkid.2.2.1 q hq
    obtain ⟨t, ht, _⟩ := h.level.here'.orderedKeys k hk f hf hu hn q hq c (by rw [hc]; simp)
    obtain ⟨g, hg, hgl, _⟩ := h.level.here'.keys k hk f hf hn q hq
    obtain ⟨hcm, hct⟩ := childrenWith_single hc
    have := (h.sub hk hf).kid hcm (by rw [hct]; exact hg)
    unfold KidOk at this
    simp only [hgl] at this
    exact ⟨c, t, hc, this.1, ht⟩

theorem Side.cell (h : Side d sc e) (hk : k ∈ e.kids) : CellOk d sc k := by
  obtain ⟨f, hf, kf⟩ := h.valid.shape' k hk
  exact ⟨f, hf, kf, fun hu => h.keyed hk hf hu⟩

theorem noAttrs_delAttrib : ∀ {e : Elem}, NoAttrs e → e.delAttrib = e := by
  intro e
  induction e using Elem.ind with
  | h t n a x ks ih =>
    intro h
    have h1 := h.here'
    simp only [Elem.attrs_mk] at h1
    subst h1
    rw [Elem.delAttrib, Elem.delAttribList_eq]
    congr 1
    conv_rhs => rw [← List.map_id ks]
    exact List.map_congr_left (fun k hk => ih k hk (h.sub' k hk))

/-! ## Text -/

theorem prefixOf_isSome {m : NsMap} {p : Option String} {u : String} (h : (p, u) ∈ m) :
    ∃ q, m.prefixOf u = some q := by
  unfold NsMap.prefixOf
  cases hf : m.reverse.find? (fun p => decide (p.2 = u)) with
  | none =>
    have := List.find?_eq_none.1 hf (p, u) (by simpa using h)
    simp at this
  | some x => exact ⟨x.1, rfl⟩

theorem mergeText_writable {sn : SNode} {k dst : Elem} (hv : LeafValueOk sn k)
    (hp : ∃ t, parseText d k sn = .ok t) (hw : Writable d sn k dst.nsmap) :
    ∃ x, mergeText d sn k dst = .ok x := by
  unfold mergeText
  cases ht : k.text with
  | none => exact ⟨_, rfl⟩
  | some t =>
    rcases hv with hv | ⟨hv, _⟩ | ⟨hv, hr⟩
    · cases hd : sn.info.datatype <;> simp_all [DType.plain]
    · obtain ⟨y, hp⟩ := hp
      unfold parseText at hp
      simp only [ht, hv, IdentityRef.default, bind, Except.bind] at hp
      simp only [hv, IdentityRef.converted, bind, Except.bind]
      cases hn : nodeUrl d k.tag with
      | error x => simp [hn] at hp
      | ok self =>
        simp only [hn] at hp
        cases hpp : IdentityRef.parse d k.nsmap t.toList with
        | error x => simp [hpp] at hp
        | ok ui =>
          obtain ⟨u, i⟩ := ui
          obtain ⟨p, hpm⟩ := hw.1 hv t ht u i hpp
          obtain ⟨q, hq⟩ := prefixOf_isSome hpm
          simp only [IdentityRef.composeTo, hq]
          cases q <;> exact ⟨_, rfl⟩
    · obtain ⟨ts, hr⟩ := hr t ht
      obtain ⟨y, hp⟩ := hp
      unfold parseText at hp
      simp only [ht, hv, InstId.convert_eq hr] at hp
      simp only [hv, InstId.convert_eq hr]
      obtain ⟨z, h1, _⟩ := bind_ok.1 hp
      obtain ⟨self, hn, hc⟩ := bind_ok.1 h1
      obtain ⟨r', hr'⟩ := InstId.conv_writable hc (hw.2 hv t ht ts hr)
      simp only [hn, hr', bind, Except.bind, pure, Except.pure]
      exact ⟨_, rfl⟩

end
end NcDiff
