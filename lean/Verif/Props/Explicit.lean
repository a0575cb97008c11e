import Verif.Proof.ExplicitShed
import Verif.Props.Server
/-!
# C72: servers that have leaves with default values
-/

namespace NcDiff
namespace Compile

/-- C72: the configs of any two documents of the modules: a server that has something that means the same as the first, with
or without leaves that are set to their default values, accepts the edit-config of the delta, and what it has then means
the same as the second. -/
theorem C72_server (h : Host) (mods : List Module) (rd : Bool) (hl : Loads h mods) (hp : ProperModules rd mods)
    (hc : ∀ m ∈ mods, ∀ s ∈ m.kids, Everywhere (Clear rd) s) (x1 x2 : Elem) (l1 l2 : List Elem)
    (hx1 : Document h mods x1 l1) (hx2 : Document h mods x2 l2) (hr1 : ∀ k ∈ l1, ReadByLxml k)
    (hr2 : ∀ k ∈ l2, ReadByLxml k) (v1 v2 : Bool) (c1 c2 : Elem) (h1 : newConfig h.device x1 v1 rd = .ok c1)
    (h2 : newConfig h.device x2 v2 rd = .ok c2) (opts : Opts) (hs : TopSafe opts mods)
    (ho : opts.create ≠ .create ∨ opts.diffType = .replace) (hw : Spellable mods l1 l2) :
    ∃ δ x, newDelta h.device c1 c2 opts = .ok δ ∧ δ.nc h.device = .ok x ∧
      ∀ m, Sane (topPlaces mods) m → SameMeaning (topPlaces mods) l1 m →
        ∃ r, serve (topPlaces mods) x.kids m = some r ∧ Sane (topPlaces mods) r ∧ SameMeaning (topPlaces mods) l2 r := by
  obtain ⟨δ, x, e1, e2, e3⟩ := C68_server h mods rd hl hp hc x1 x2 l1 l2 hx1 hx2 hr1 hr2 v1 v2 c1 c2 h1 h2 opts hs hw
  have hF := field_root hl hp (regular_of_clear hc)
  obtain ⟨s1, t1, _, _, m1⟩ := document_means hl hp (regular_of_clear hc) hx1 hr1 h1
  obtain ⟨s2, t2, _, _, m2⟩ := document_means hl hp (regular_of_clear hc) hx2 hr2 h2
  refine ⟨δ, x, e1, e2, fun m hm hmean => ?_⟩
  obtain ⟨m0, hm0, hme⟩ := holds_shed hF s1 t1 hm (m1.symm.trans hmean)
  obtain ⟨r0, r1, r2, r3⟩ := e3 m0 hm0
  have hops : OpsIn NotCreate x := by
    have hd : δ.dst = c2 ∧ δ.opts = opts := by
      unfold newDelta at e1
      obtain ⟨_, _, e1⟩ := bind_ok.1 e1
      cases e1
      exact ⟨rfl, rfl⟩
    refine operations_nc (opts := opts) (fun {o} hoo => ?_) hd.2 (operations_noAttrs (by simp [NotCreate]) (by rw [hd.1]; exact s2.bare)) e2
    rw [hoo]
    refine ⟨by simp [NotCreate], ?_, fun _ => by simp [NotCreate], fun h1 h2 => ?_⟩
    · cases opts.delete <;> simp [NotCreate, PrefDelete.str]
    · rcases ho with ho | ho
      · exact absurd h1 ho
      · exact absurd ho h2
  obtain ⟨r, hr, hre⟩ := serve_explicit x.kids hF hops.sub' hme r1
  have sr0 := r2.sane (config_sane c2 hF s2 t2).1
  have sr := (hre.sane hF).1 sr0
  exact ⟨r, hr, sr, r3.trans (hre.meaning hF sr)⟩

/-- C72, the whole exchange: the config that a server reports, with or without defaults, and the config of any other
document: after the edit-config of the delta between them the server has what means the same as the document. -/
theorem C72_exchange (h : Host) (mods : List Module) (rd : Bool) (hl : Loads h mods) (hp : ProperModules rd mods)
    (hc : ∀ m ∈ mods, ∀ s ∈ m.kids, Everywhere (Clear rd) s) (x1 x2 : Elem) (m l2 : List Elem)
    (hx1 : Document h mods x1 m) (hx2 : Document h mods x2 l2) (hr1 : ∀ k ∈ m, ReadByLxml k)
    (hr2 : ∀ k ∈ l2, ReadByLxml k) (v1 v2 : Bool) (opts : Opts) (hs : TopSafe opts mods)
    (ho : opts.create ≠ .create ∨ opts.diffType = .replace) (hw : Spellable mods m l2) (hm : Sane (topPlaces mods) m) :
    ∃ c1 c2 δ x r, newConfig h.device x1 v1 rd = .ok c1 ∧ newConfig h.device x2 v2 rd = .ok c2 ∧
      newDelta h.device c1 c2 opts = .ok δ ∧ δ.nc h.device = .ok x ∧ serve (topPlaces mods) x.kids m = some r ∧
      Sane (topPlaces mods) r ∧ SameMeaning (topPlaces mods) l2 r := by
  obtain ⟨c1, h1, _⟩ := C65_accepted h mods rd hl hp x1 m hx1 v1
  obtain ⟨c2, h2, _⟩ := C65_accepted h mods rd hl hp x2 l2 hx2 v2
  obtain ⟨δ, x, e1, e2, e3⟩ := C72_server h mods rd hl hp hc x1 x2 m l2 hx1 hx2 hr1 hr2 v1 v2 c1 c2 h1 h2 opts hs ho hw
  obtain ⟨_, _, _, _, m1⟩ := document_means hl hp (regular_of_clear hc) hx1 hr1 h1
  obtain ⟨r, r1, r2, r3⟩ := e3 m hm (m1.trans m1.symm)
  exact ⟨c1, c2, δ, x, r, h1, h2, e1, e2, r1, r2, r3⟩

/-- The config is that of a document that means the same as `m`, and whose identities are in the namespaces `us`. -/
def MeansConfig (h : Host) (mods : List Module) (us : List String) (rd : Bool) (c : Elem) (m : List Elem) : Prop :=
  ∃ x l v, Document h mods x l ∧ (∀ k ∈ l, ReadByLxml k) ∧ WellSpelled us mods l ∧ newConfig h.device x v rd = .ok c ∧
    SameMeaning (topPlaces mods) l m

/-- C72, history: a server that gets one delta after another accepts all of them, and what it has then means the same as the
last config. -/
theorem C72_history (h : Host) (mods : List Module) (us : List String) (rd : Bool) (hl : Loads h mods) (hp : ProperModules rd mods)
    (hc : ∀ m ∈ mods, ∀ s ∈ m.kids, Everywhere (Clear rd) s) : ∀ (rest : List (Opts × Elem)) (c : Elem) (m : List Elem),
    MeansConfig h mods us rd c m → (∀ p ∈ rest, OfDocument h mods us rd p.2 ∧ TopSafe p.1 mods ∧
      (p.1.create ≠ .create ∨ p.1.diffType = .replace)) → Sane (topPlaces mods) m →
    ∃ r, follow h.device (topPlaces mods) m c rest = some r ∧ Sane (topPlaces mods) r ∧
      MeansConfig h mods us rd ((rest.getLast?.map Prod.snd).getD c) r
  | [], c, m, hm, _, hs => ⟨m, rfl, hs, hm⟩
  | (o, c') :: rest, c, m, hm, hall, hsane => by
    obtain ⟨hd', hs, ho⟩ := hall (o, c') (by simp)
    obtain ⟨x1, l1, v1, a1, a2, a0, a3, a4⟩ := hm
    obtain ⟨x2, l2, v2, b1, b2, b0, b3⟩ := hd'
    obtain ⟨δ, x, e1, e2, e3⟩ := C72_server h mods rd hl hp hc x1 x2 l1 l2 a1 b1 a2 b2 v1 v2 c c' a3 b3 o hs ho (a0.spellable b0)
    obtain ⟨r, r1, r2, r3⟩ := e3 m hsane a4
    obtain ⟨s, s1, s2, s3⟩ := C72_history h mods us rd hl hp hc rest c' r ⟨x2, l2, v2, b1, b2, b0, b3, r3⟩
      (fun p hp => hall p (by simp [hp])) r2
    refine ⟨s, ?_, s2, ?_⟩
    · rw [follow, e1]
      simp only [bind, Except.bind, e2, r1]
      exact s1
    · cases rest with
      | nil => exact s3
      | cons y ys =>
        rw [List.getLast?_cons_cons]
        rw [List.getLast?_cons, Option.map_some, Option.getD_some] at s3 ⊢
        exact s3

end Compile

namespace ServerDemo.Given

open Compile Demo YangDemo MeaningDemo

instance (s : Stmt) (l : List Elem) : Decidable (AsDefaults s l) :=
  decidable_of_iff (((∀ v ∈ l.map (fun k : Elem => k.text.getD ""), v ∈ s.info.defaults) ∧
      ∀ v ∈ s.info.defaults, v ∈ l.map (fun k : Elem => k.text.getD "")) ∧
      (s.info.Says "ordered-by" "user" → l.map (fun k : Elem => k.text.getD "") = s.info.defaults))
    (and_congr_left fun _ => ⟨fun h v => ⟨h.1 v, h.2 v⟩, fun h => ⟨fun v => (h v).1, fun v => (h v).2⟩⟩)

/-- Checks the conditions of `Sane` at one level. -/
def levelB (pl : List Place) (m : List Elem) : Bool :=
  pl.all fun p =>
    match nameOf p.1 p.2 with
    | none => true
    | some q => decide (((tagged q m).map (identity p)).Nodup ∧ (∀ y ∈ tagged q m, y.text ≠ some "") ∧
        (p.2.info.keyword = "leaf-list" → tagged q m ≠ [] → ¬ AsDefaults p.2 (tagged q m)))

mutual
def saneOneB (pl : List Place) : Elem → Bool
  | .mk t _ _ _ ks => pl.all fun p => nameOf p.1 p.2 ≠ some t || (levelB (places p.1 p.2.kids) ks && saneAllB (places p.1 p.2.kids) ks)
def saneAllB (pl : List Place) : List Elem → Bool
  | [] => true
  | y :: r => saneOneB pl y && saneAllB pl r
end

def saneB (pl : List Place) (m : List Elem) : Bool := levelB pl m && saneAllB pl m

theorem levelB_sound {pl : List Place} {m : List Elem} (h : levelB pl m = true) {p : Place} (hp : p ∈ pl) {q : QName} (hq : Named p.1 q p.2) :
    ((tagged q m).map (identity p)).Nodup ∧ (∀ y ∈ tagged q m, y.text ≠ some "") ∧
        (p.2.info.keyword = "leaf-list" → tagged q m ≠ [] → ¬ AsDefaults p.2 (tagged q m)) := by
  have h1 := List.all_eq_true.1 h p hp
  rw [nameOf_named.2 hq] at h1
  exact of_decide_eq_true h1

mutual
theorem saneOneB_sound (pl : List Place) : ∀ (e : Elem), saneOneB pl e = true → ∀ p ∈ pl, Named p.1 e.tag p.2 →
    Sane (places p.1 p.2.kids) e.kids
  | .mk t _ _ _ ks, h, p, hp, hn => by
    rw [saneOneB] at h
    have h1 := List.all_eq_true.1 h p hp
    rw [Elem.tag_mk] at hn
    simp only [nameOf_named.2 hn, ne_eq, not_true_eq_false, decide_false, Bool.false_or] at h1
    rw [Bool.and_eq_true] at h1
    have ha := saneAllB_sound (places p.1 p.2.kids) ks h1.2
    exact ⟨fun p hp _ q hq => (levelB_sound h1.1 hp hq).1, fun p hp _ q hq => (levelB_sound h1.1 hp hq).2.1,
      fun p hp hk q hq => (levelB_sound h1.1 hp hq).2.2 hk,
      fun p hp _ q hq y hy => ha y (mem_tagged.1 hy).1 p hp (by rw [(mem_tagged.1 hy).2]; exact hq)⟩
theorem saneAllB_sound (pl : List Place) : ∀ (m : List Elem), saneAllB pl m = true → ∀ y ∈ m, ∀ p ∈ pl, Named p.1 y.tag p.2 →
    Sane (places p.1 p.2.kids) y.kids
  | [], _, _, hy => by cases hy
  | z :: r, h, y, hy => by
    rw [saneAllB, Bool.and_eq_true] at h
    rcases List.mem_cons.1 hy with he | hy
    · rw [he]; exact saneOneB_sound pl z h.1
    · exact saneAllB_sound pl r h.2 y hy
end

theorem saneB_sound (pl : List Place) (m : List Elem) (h : saneB pl m = true) : Sane pl m := by
  rw [saneB, Bool.and_eq_true] at h
  have ha := saneAllB_sound pl m h.2
  exact ⟨fun p hp _ q hq => (levelB_sound h.1 hp hq).1, fun p hp _ q hq => (levelB_sound h.1 hp hq).2.1,
    fun p hp hk q hq => (levelB_sound h.1 hp hq).2.2 hk,
    fun p hp _ q hq y hy => ha y (mem_tagged.1 hy).1 p hp (by rw [(mem_tagged.1 hy).2]; exact hq)⟩

/-- What a server has that means the same as the first document of C68, with two explicit defaults, one of them in a
container that the document does not have. -/
def m1 : List Elem :=
  [el "top" [it "1" [lf "val" "5"], it "2" [lf "val" "0"], it "3" [lf "val" "6"], el "np" [lf "w" "x"], el "on" [], lf "tags" "c"]]

theorem docM : Document (hostOf mstmts) mmods (reply m1) m1 := ⟨.reply (e := reply m1) rfl, instB_sound _ (by decide +kernel)⟩

/-- The hypotheses of C72 are met; with `preferred_create='create'` and `diff_type='replace'`, too. -/
example : ∀ opts ∈ [{}, { create := .replace, replace := .replace, delete := .remove }, { diffType := .minimumReplace, replaceDepth := 1 },
    { create := .create, diffType := .replace, replaceDepth := 1 }], ∃ c1 c2 δ x r, newConfig d (reply m1) true true = .ok c1 ∧
      newConfig d (reply l2) true true = .ok c2 ∧ newDelta d c1 c2 opts = .ok δ ∧ δ.nc d = .ok x ∧
      serve pl x.kids m1 = some r ∧ Sane pl r ∧ SameMeaning pl l2 r := by
  intro opts h
  refine C72_exchange (hostOf mstmts) mmods true loads proper mclear _ _ _ _ docM doc2
    (lxmlKidsB_sound _ (by decide +kernel)) (lxmlKidsB_sound _ (by decide +kernel)) true true opts
    (Or.inr (Or.inr (by decide +kernel))) ?_ (spellable_of_plain mplain _ _) (saneB_sound _ _ (by decide +kernel))
  simp only [List.mem_cons, List.not_mem_nil, or_false] at h
  rcases h with rfl | rfl | rfl | rfl <;> simp

/-- What the server has then: the default of the entry 2 is replaced, that of the container `np` as well. -/
example : ∃ x, (newDelta d c1 c2 >>= fun δ => δ.nc d) = .ok x ∧ newConfig d (reply m1) true true = .ok c1 ∧ m1 ≠ l1 ∧
    serve pl x.kids m1 = some [el "top" [it "3" [lf "val" "6"], it "2" [lf "val" "7"], it "4" [], it "1" [], el "np" [lf "w" "y"]]] :=
  ⟨(newDelta d c1 c2 >>= fun δ => δ.nc d).toOption.getD default, by decide +kernel, by decide +kernel, by decide +kernel,
    by decide +kernel⟩

/-- A server that follows the deltas there and back again. -/
example : ∃ r, follow d pl m1 c1 [({}, c2), ({ create := .replace }, c1), ({ diffType := .replace }, c2)] = some r ∧ Sane pl r ∧
    MeansConfig (hostOf mstmts) mmods [] true c2 r := by
  have h1 : OfDocument (hostOf mstmts) mmods [] true c1 := ⟨_, _, true, doc1, lxmlKidsB_sound _ (by decide +kernel), spelled_of_plain mplain _ _, conf1⟩
  have h2 : OfDocument (hostOf mstmts) mmods [] true c2 := ⟨_, _, true, doc2, lxmlKidsB_sound _ (by decide +kernel), spelled_of_plain mplain _ _, conf2⟩
  have hm := (document_means loads proper (regular_of_clear mclear) docM (lxmlKidsB_sound _ (by decide +kernel))
    (show newConfig (hostOf mstmts).device (reply m1) true true = .ok c1 by decide +kernel)).2.2.2.2
  refine C72_history (hostOf mstmts) mmods [] true loads proper mclear _ c1 m1
    ⟨_, _, true, docM, lxmlKidsB_sound _ (by decide +kernel), spelled_of_plain mplain _ _, by decide +kernel, hm.trans hm.symm⟩ ?_ (saneB_sound _ _ (by decide +kernel))
  have ht : ∀ opts, TopSafe opts mmods := fun opts => Or.inr (Or.inr (by decide +kernel))
  intro p hp
  simp only [List.mem_cons, List.not_mem_nil, or_false] at hp
  rcases hp with rfl | rfl | rfl
  · exact ⟨h2, ht _, by simp⟩
  · exact ⟨h1, ht _, by simp⟩
  · exact ⟨h2, ht _, by simp⟩

/-- C72 is false for a server that has the default values of a leaf-list, and no others: the config of what it reports does
not have them, so the delta does not delete them, and then the server has them and the new value. -/
theorem C72_false_for_leafList : ∃ m l x r, newConfig d (reply m) true true = .ok (noConfig.setKids l3) ∧
    newConfig d (reply l) true true = .ok (noConfig.setKids l) ∧
    (newDelta d (noConfig.setKids l3) (noConfig.setKids l) >>= fun δ => δ.nc d) = .ok x ∧
    serve pl x.kids m = some r ∧ newConfig d (reply r) true true = .ok (noConfig.setKids r) ∧
    cfgEq d (noConfig.setKids r) (noConfig.setKids l) = .ok false :=
  ⟨[el "top" [it "1" [], lf "tags" "a", lf "tags" "b"]], [el "top" [it "1" [], lf "tags" "c"]],
    (newDelta d (noConfig.setKids l3) (noConfig.setKids [el "top" [it "1" [], lf "tags" "c"]]) >>= fun δ => δ.nc d).toOption.getD default,
    [el "top" [it "1" [], lf "tags" "a", lf "tags" "b", lf "tags" "c"]],
    by decide +kernel, by decide +kernel, by decide +kernel, by decide +kernel, by decide +kernel, by decide +kernel⟩

end ServerDemo.Given
end NcDiff
