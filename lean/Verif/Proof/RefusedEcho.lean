import Verif.Proof.RefusedPlace
import Verif.Proof.SubParts
/-!
# Entries stay recognisable while a delta is applied
-/

namespace NcDiff
namespace Refuse

variable {d : Device} {sc : Scope}

/-- `x` denotes the same instance as `y` and is named by the same anchors. -/
structure Echo (d : Device) (sc : Scope) (x y : Elem) : Prop where
  uid : uid d sc x = uid d sc y
  tag : x.tag = y.tag
  text : ∀ f, d.lookup sc y.tag = .ok f → f.node.ntype = .leafList → x.text = y.text
  keys : ∀ f, d.lookup sc y.tag = .ok f → f.node.ntype = .list → ∀ q ∈ f.node.keys,
    (x.childrenWith q).map Elem.itertext = (y.childrenWith q).map Elem.itertext

theorem Echo.refl (x : Elem) : Echo d sc x x := ⟨rfl, rfl, fun _ _ _ => rfl, fun _ _ _ _ _ => rfl⟩

/-- Only values of keys are given. -/
def KeyAnchor (f : Found) (o : Elem) : Prop :=
  f.node.ntype = .list → ∀ ps, o.get .key = some (.pred ps) → ∀ x ∈ ps, ∀ q, Denotes o.nsmap x.1 q →
    q ∈ f.node.keys

theorem Echo.named {x y o : Elem} {f : Found} (h : Echo d sc x y) (hf : d.lookup sc o.tag = .ok f)
    (ha : KeyAnchor f o) : Named f.node o x ↔ Named f.node o y := by
  unfold Named
  rw [h.tag]
  refine and_congr_right (fun ht => ?_)
  have hf' : d.lookup sc y.tag = .ok f := by rw [ht]; exact hf
  cases hn : f.node.ntype <;> simp only
  · rw [h.text f hf' hn]
  · have hk := h.keys f hf' hn
    constructor
    · rintro ⟨ps, hp, h1⟩
      refine ⟨ps, hp, fun z hz => ?_⟩
      obtain ⟨q, hq, c, hc, he⟩ := h1 z hz
      have hm : z.2 ∈ (x.childrenWith q).map Elem.itertext := List.mem_map.2 ⟨c, hc, he⟩
      rw [hk q (ha hn ps hp z hz q hq)] at hm
      obtain ⟨c', hc', he'⟩ := List.mem_map.1 hm
      exact ⟨q, hq, c', hc', he'⟩
    · rintro ⟨ps, hp, h1⟩
      refine ⟨ps, hp, fun z hz => ?_⟩
      obtain ⟨q, hq, c, hc, he⟩ := h1 z hz
      have hm : z.2 ∈ (y.childrenWith q).map Elem.itertext := List.mem_map.2 ⟨c, hc, he⟩
      rw [← hk q (ha hn ps hp z hz q hq)] at hm
      obtain ⟨c', hc', he'⟩ := List.mem_map.1 hm
      exact ⟨q, hq, c', hc', he'⟩

theorem itertext_delAttrib : ∀ e : Elem, e.delAttrib.itertext = e.itertext := by
  intro e
  induction e using Elem.ind with
  | h t n a x ks ih =>
    rw [Elem.delAttrib, Elem.itertext, Elem.itertext, Elem.delAttribList_eq]
    congr 1
    induction ks with
    | nil => rfl
    | cons k ks ihk =>
      rw [List.map_cons, Elem.itertextList, Elem.itertextList, ih k (by simp),
        ihk (fun k hk => ih k (by simp [hk]))]

theorem itertext_leaf {e : Elem} (h : e.kids = []) : e.itertext = e.text.getD "" := by
  cases e with
  | mk t n a x ks =>
    simp only [Elem.kids_mk] at h
    subst h
    simp [Elem.itertext, Elem.itertextList]

theorem childrenWith_delAttrib_itertext (e : Elem) (q : QName) :
    (e.delAttrib.childrenWith q).map Elem.itertext = (e.childrenWith q).map Elem.itertext := by
  rw [delAttrib_childrenWith, List.map_map]
  apply List.map_congr_left
  intro c _
  exact itertext_delAttrib c

theorem skeleton_some {keys : List QName} {o : Elem} (hk : ∀ q ∈ keys, ∃ c, o.childrenWith q = [c]) :
    ∃ sk, listSkeleton keys o = .ok sk := by
  unfold listSkeleton
  rw [mapM_eq_ok (g := fun q => ((o.find q).getD default).delAttrib)]
  · exact ⟨_, rfl⟩
  · intro q hq
    obtain ⟨c, hc⟩ := hk q hq
    rw [find_childrenWith hc]; rfl

theorem echo_new {o e : Elem} {f : Found} (hf : d.lookup sc o.tag = .ok f) (hk : KidOk d f.node o)
    (hkeys : KeysPlain d f o) (honce : f.node.ntype = .list → f.node.keys.Nodup)
    (h : newContent f (o, addFn d o) = .ok e) : Echo d sc e o := by
  obtain ⟨ht, _, hu, _⟩ := newContent_ok hf hk hkeys h
  refine ⟨hu, ht, ?_, ?_⟩
  · intro f' hf' hn
    rw [hf] at hf'; cases hf'
    unfold newContent at h
    simp only [hn] at h; cases h
    exact delAttrib_text o
  · intro f' hf' hn q hq
    rw [hf] at hf'; cases hf'
    unfold newContent at h
    simp only [hn] at h
    split at h
    · obtain ⟨sk, hs, h⟩ := bind_ok.1 h
      have hk' := hk
      unfold KidOk at hk'
      simp only [hn] at hk'
      obtain ⟨s1, s2, s3, s4, _⟩ := listSkeleton_ok hs
      obtain ⟨_, _, h3⟩ := merged_list hf hn hk s1 s4 (hkeys hn)
          (fun q hq c hc => ⟨c.delAttrib, skeleton_childrenWith hs hk'.2.2.1 (honce hn) hq hc, delAttrib_text c⟩)
          (skeleton_honest hs hk'.2.2.1 (honce hn) (fun q hq => (hkeys hn q hq).1)) h
      obtain ⟨c, hc⟩ := hk'.2.2.1 q hq
      rw [h3 q hq, skeleton_childrenWith hs hk'.2.2.1 (honce hn) hq hc, hc]
      simp [itertext_delAttrib]
    · cases h
      exact childrenWith_delAttrib_itertext o q

theorem key_leaf {e : Elem} {sn : SNode} (hv : Valid d (.node sn) e) {q : QName} {g : Found}
    (hg : d.lookup (.node sn) q = .ok g) (hl : g.node.ntype = .leaf) {c : Elem}
    (hc : e.childrenWith q = [c]) : c.kids = [] := by
  obtain ⟨hm, ht⟩ := childrenWith_single hc
  obtain ⟨g', hg', kg⟩ := hv.shape' c hm
  rw [ht, hg] at hg'; cases hg'
  unfold KidOk at kg
  simp only [hl] at kg
  exact kg.1

theorem echo_peer {s o : Elem} {f : Found} {x : PeerRes} (hf : d.lookup sc s.tag = .ok f)
    (hs : KidOk d f.node s) (hk : KidOk d f.node o) (hso : SameInstance d sc s o)
    (hkeys : KeysPlain d f o) (hh : KeysHonest d f s) (hvs : Valid d (.node f.node) s) (hvo : Valid d (.node f.node) o)
    (h : peerContent d f.node (o, addFn d o) s = .ok x) : ∀ e, x.elem s = some e → Echo d sc e s := by
  intro e he
  obtain ⟨hu, ht⟩ := peerContent_uid hf hs hk hso hkeys hh h e he
  have hft : d.lookup sc o.tag = .ok f := by rw [← hso.1]; exact hf
  refine ⟨hu, ht, ?_, ?_⟩
  · intro f' hf' hn
    rw [hf] at hf'; cases hf'
    unfold peerContent at h
    simp only [hn] at h
    split at h
    · cases h; cases he; rfl
    split at h
    · cases h
    split at h
    · cases h; cases he
    · cases h
  · intro f' hf' hn q hq
    rw [hf] at hf'; cases hf'
    unfold peerContent at h
    simp only [hn] at h
    unfold peerTree at h
    have hs' := hs
    have hk' := hk
    unfold KidOk at hs' hk'
    simp only [hn] at hs' hk'
    have hkt : ∀ q ∈ f.node.keys, keyTexts s q = keyTexts o q := by
      have := hso.2 f hf
      simp only [hn] at this; exact this
    have single : ∀ q ∈ f.node.keys, ∀ c, o.childrenWith q = [c] →
        ∃ c', s.childrenWith q = [c'] ∧ c'.text = c.text := by
      intro q hq c hc
      obtain ⟨c', hc'⟩ := hs'.2.2.1 q hq
      have := hkt q hq
      unfold keyTexts at this
      rw [hc, hc'] at this
      exact ⟨c', hc', by simpa using this⟩
    split at h
    · obtain ⟨e', he', h⟩ := bind_ok.1 h
      have hme := (merged_list hft hn hk hso.1 hs'.1 (hkeys hn) single hh he').2.2
      split at h
      · cases h; cases he
      · cases h; cases he
        rw [hme q hq]
    split at h
    · split at h
      · cases h
      · cases h; cases he
        obtain ⟨⟨g, hg, hl, _⟩, _⟩ := hkeys hn q hq
        obtain ⟨c, hc⟩ := hk'.2.2.1 q hq
        obtain ⟨c', hc', htx⟩ := single q hq c hc
        rw [childrenWith_delAttrib_itertext, hc, hc']
        simp only [List.map_cons, List.map_nil, List.cons.injEq, and_true]
        rw [itertext_leaf (key_leaf hvo hg hl hc), itertext_leaf (key_leaf hvs hg hl hc'), htx]
    split at h
    · cases h
    split at h
    · split at h
      · cases h
      · cases h; cases he
    · cases h

theorem starts_skeleton {o sk : Elem} {f : Found} (hn : f.node.ntype = .list) (hk : KidOk d f.node o)
    (hs : listSkeleton f.node.keys o = .ok sk) : StartsFrom f o sk := by
  obtain ⟨s1, s2, s3, s4, _⟩ := listSkeleton_ok hs
  unfold KidOk at hk
  simp only [hn] at hk
  refine ⟨s1, s2, s3, s4, fun h => (by rw [hn] at h; cases h), fun _ => ?_⟩
  rw [skeleton_kids hs hk.2.2.1]
  generalize f.node.keys = keys at *
  have : ∀ l : List QName, (∀ q ∈ l, q ∈ keys) →
      List.Forall₂ (fun q x => ∃ c, o.childrenWith q = [c] ∧ x = c.delAttrib) l
        (l.map (fun q => ((o.find q).getD default).delAttrib)) := by
    intro l hl
    induction l with
    | nil => exact .nil
    | cons q l ih =>
      obtain ⟨c, hc⟩ := hk.2.2.1 q (hl q (by simp))
      exact .cons ⟨c, hc, by simp only [find_childrenWith hc]; rfl⟩ (ih (fun q hq => hl q (by simp [hq])))
  exact this keys (fun _ h => h)

theorem starts_container {o : Elem} {f : Found} (hn : f.node.ntype = .container) :
    StartsFrom f o (Elem.new o.tag o.nsmap) :=
  ⟨rfl, rfl, rfl, rfl, fun _ => rfl, fun h => by rw [hn] at h; cases h⟩

theorem elem_ext {a b : Elem} (h1 : a.tag = b.tag) (h2 : a.nsmap = b.nsmap) (h3 : a.attrs = b.attrs)
    (h4 : a.text = b.text) (h5 : a.kids = b.kids) : a = b := by
  cases a; cases b; simp_all

theorem starts_unique {o b c : Elem} {f : Found} (hn : f.node.ntype = .container ∨ f.node.ntype = .list)
    (hb : StartsFrom f o b) (hc : StartsFrom f o c) : b = c := by
  refine elem_ext (hb.tag.trans hc.tag.symm) (hb.nsmap.trans hc.nsmap.symm)
    (hb.attrs.trans hc.attrs.symm) (hb.text.trans hc.text.symm) ?_
  rcases hn with hn | hn
  · rw [hb.container hn, hc.container hn]
  · have h1 := hb.list hn
    have h2 := hc.list hn
    generalize f.node.keys = keys, b.kids = l, c.kids = r at h1 h2
    induction h1 generalizing r with
    | nil => cases h2; rfl
    | cons h _ ih =>
      cases h2 with
      | cons h' h2 =>
        obtain ⟨x, hx, rfl⟩ := h
        obtain ⟨y, hy, rfl⟩ := h'
        rw [hx] at hy
        simp only [List.cons.injEq, and_true] at hy
        subst hy
        rw [ih _ h2]

theorem mergeText_error {sn : SNode} {k dst : Elem} {x : Err} (hv : LeafValueOk sn k)
    (hp : ∃ t, parseText d k sn = .ok t) (h : mergeText d sn k dst = .error x) :
    x = .configError ∧ ¬ Writable d sn k dst.nsmap := by
  refine ⟨?_, fun hw => by obtain ⟨y, hy⟩ := mergeText_writable hv hp hw; rw [hy] at h; cases h⟩
  unfold mergeText at h
  cases ht : k.text with
  | none => simp [ht] at h
  | some t =>
    simp only [ht] at h
    rcases hv with hv | ⟨hv, _⟩ | ⟨hv, hr⟩
    · cases hd : sn.info.datatype <;> simp_all [DType.plain]
    · obtain ⟨y, hp⟩ := hp
      unfold parseText at hp
      simp only [ht, hv, IdentityRef.default, bind, Except.bind] at hp
      simp only [hv, IdentityRef.converted, bind, Except.bind] at h
      cases hn : nodeUrl d k.tag with
      | error x => simp [hn] at hp
      | ok self =>
        simp only [hn] at hp h
        cases hpp : IdentityRef.parse d k.nsmap t.toList with
        | error x => simp [hpp] at hp
        | ok ui =>
          obtain ⟨u, i⟩ := ui
          simp only [hpp, IdentityRef.composeTo] at h
          cases hq : dst.nsmap.prefixOf u with
          | none => simp only [hq] at h; cases h; rfl
          | some q => cases q <;> simp [hq, pure, Except.pure] at h
    · obtain ⟨ts, hr⟩ := hr t ht
      obtain ⟨y, hp⟩ := hp
      unfold parseText at hp
      simp only [ht, hv, InstId.convert_eq hr] at hp
      simp only [hv, InstId.convert_eq hr] at h
      obtain ⟨z, h1, _⟩ := bind_ok.1 hp
      obtain ⟨self, hn, _⟩ := bind_ok.1 h1
      simp only [hn, bind, Except.bind] at h
      cases hc : InstId.conv d k.nsmap (some dst.nsmap) none ts with
      | error y => simp only [hc] at h; cases h; exact InstId.conv_error hc
      | ok y => simp [hc, pure, Except.pure] at h

theorem mergeText_unwritable {sn : SNode} {k dst e : Elem} (hw : ¬ Writable d sn k dst.nsmap)
    (h : mergeText d sn k dst = .ok e) : False := by
  apply hw
  refine ⟨?_, ?_⟩
  swap
  · intro hd t ht ts hr
    unfold mergeText at h
    simp only [ht, hd, InstId.convert_eq hr] at h
    obtain ⟨z, h1, _⟩ := bind_ok.1 h
    obtain ⟨self, hn, hc⟩ := bind_ok.1 h1
    exact InstId.conv_used hc
  intro hd t ht u i hp
  unfold mergeText at h
  simp only [ht, hd, IdentityRef.converted, bind, Except.bind] at h
  cases hn : nodeUrl d k.tag with
  | error x => simp [hn] at h
  | ok self =>
    simp only [hn, hp, IdentityRef.composeTo] at h
    cases hq : dst.nsmap.prefixOf u with
    | none => simp [hq] at h
    | some q =>
      unfold NsMap.prefixOf at hq
      rw [Option.map_eq_some_iff] at hq
      obtain ⟨z, hz, rfl⟩ := hq
      have h1 := List.mem_of_find?_eq_some hz
      have h2 : z.2 = u := by simpa using List.find?_some hz
      exact ⟨z.1, by rw [← h2]; simpa using h1⟩

end Refuse
end NcDiff
