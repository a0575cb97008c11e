import Verif.Props.Cases
/-!
# Examples of C67, C68 and C70 with leaves of the type identityref
-/

namespace NcDiff

namespace Compile

mutual
/-- Executable `Leaves`. -/
def leavesB (P : Stmt → Elem → Bool) (pl : List Place) : Elem → Bool
  | .mk _ _ _ _ ks => leavesKidsB P pl ks
/-- See `leavesB`. -/
def leavesKidsB (P : Stmt → Elem → Bool) (pl : List Place) : List Elem → Bool
  | [] => true
  | k :: r => (pl.all fun p => decide (nameOf p.1 p.2 ≠ some k.tag) ||
      ((decide (p.2.info.keyword ≠ "leaf") || P p.2 k) && leavesB P (places p.1 p.2.kids) k)) && leavesKidsB P pl r
end

mutual
theorem leavesB_sound {P : Stmt → Elem → Bool} : ∀ (e : Elem) {pl : List Place}, leavesB P pl e = true →
    Leaves (fun s k => P s k = true) pl e
  | .mk _ _ _ _ ks, pl, h => by
    rw [leavesB] at h
    have := leavesKidsB_sound ks h
    exact ⟨fun k hk p hp hn => (this k hk p hp hn).1, fun k hk p hp hn => (this k hk p hp hn).2⟩
theorem leavesKidsB_sound {P : Stmt → Elem → Bool} : ∀ (ks : List Elem) {pl : List Place}, leavesKidsB P pl ks = true →
    ∀ k ∈ ks, ∀ p ∈ pl, Named p.1 k.tag p.2 → (p.2.info.keyword = "leaf" → P p.2 k = true) ∧
      Leaves (fun s k => P s k = true) (places p.1 p.2.kids) k
  | [], _, _ => by simp
  | k :: r, pl, h => by
    rw [leavesKidsB, Bool.and_eq_true, List.all_eq_true] at h
    intro k' hk' p hp hn
    rcases List.mem_cons.1 hk' with he | hk'
    · rw [he] at hn ⊢
      have h1 := h.1 p hp
      simp only [nameOf_named.2 hn, ne_eq, not_true_eq_false, decide_false, Bool.false_or, Bool.and_eq_true] at h1
      refine ⟨fun hk => ?_, leavesB_sound k h1.2⟩
      simpa [hk] using h1.1
    · exact leavesKidsB_sound r h.2 k' hk' p hp hn
end

/-- Executable `Declares`. -/
def declaresB (us : List String) (s : Stmt) (k : Elem) : Bool :=
  !isIdentity s || us.all fun u => k.nsmap.any fun p => decide (p.2 = u)

/-- Executable `WithinNs`. -/
def withinB (us : List String) (s : Stmt) (k : Elem) : Bool :=
  match valueOf s k with
  | .identity u _ => us.contains u
  | .text _ => true

theorem Leaves.imp {P Q : Stmt → Elem → Prop} (hPQ : ∀ {s k}, P s k → Q s k) {pl : List Place} {e : Elem} (h : Leaves P pl e) :
    Leaves Q pl e := by
  induction h with
  | mk here _ ih => exact ⟨fun k hk p hp hn hl => hPQ (here k hk p hp hn hl), fun k hk p hp hn => ih k hk p hp hn⟩

theorem wellSpelled_of {us : List String} {mods : List Module} {l : List Elem}
    (h : (leavesB (fun s k => declaresB us s k && withinB us s k) (topPlaces mods) (noConfig.setKids l)) = true) :
    WellSpelled us mods l := by
  have := leavesB_sound _ h
  constructor
  · refine this.imp fun {s k} h hi u hu => ?_
    rw [Bool.and_eq_true, declaresB, hi] at h
    have h1 : ∀ u ∈ us, ∃ a, (a, u) ∈ k.nsmap := by simpa using h.1
    exact h1 u hu
  · refine this.imp fun {s k} h u i hv => ?_
    rw [Bool.and_eq_true, withinB, hv] at h
    simpa using h.2

end Compile

namespace KindsDemo

open Compile Demo YangDemo MeaningDemo

/-- A list whose entries have a kind, which is an identity, and a choice with a leaf of this type. -/
def kstmts : List Stmt :=
  [ st "container" "top"
      [ st "list" "item" [st "leaf" "id" (type := str) (isKey := true), st "leaf" "kind" (type := some { arg := "identityref", base := some "b" })]
          [("key", "id")],
        st "choice" "mode" [st "case" "a" [st "leaf" "alg" (type := some { arg := "identityref", base := some "b" })],
          st "case" "b" [st "leaf" "y" (type := str)]] ] ]

def kmods : List Module := [⟨"demo", "d", modNs, kstmts⟩]

/-- The identities are defined in another module. -/
def host : Host :=
  { id := 1, namespaces := [("demo", "d", u), ("types", "t", "urn:types")], loadable := ["demo"],
    models := [("demo", (compileTree modNs "demo" (some "d") kstmts).toOption.getD default)] }
def d : Device := host.device
def pl : List Place := topPlaces kmods

/-- A leaf with its own prefixes. -/
def kind (n p v : String) : Elem := .mk (q n) [(none, u), (some p, "urn:types")] [] (some v) []

def l1 : List Elem := [el "top" [it "1" [kind "kind" "t" "t:eth"], it "2" [], kind "alg" "t" "t:des"]]
/-- The same with another prefix. -/
def l1' : List Elem := [el "top" [it "1" [kind "kind" "x" "x:eth"], it "2" [], kind "alg" "z" "z:des"]]
def l2 : List Elem := [el "top" [it "1" [kind "kind" "x" "x:wifi"], it "2" [kind "kind" "t" "own"], lf "y" "1"]]

theorem loads : Loads host kmods := .cons ⟨rfl, by decide +kernel⟩ .nil
theorem proper : ProperModules true kmods := properModulesB_sound (by decide +kernel)
theorem choices : ChoiceModules true kmods := by
  refine ⟨?_, ?_, ?_⟩ <;> (intro m hm s hs; obtain rfl := List.mem_singleton.1 hm)
  · exact (everyListB_sound (P := regularB true) kstmts (by decide +kernel) s hs).imp fun _ => regularB_sound
  · exact (everyListB_sound (P := plainChoiceB) kstmts (by decide +kernel) s hs).imp fun _ => plainChoiceB_sound
  · revert s; decide +kernel
theorem doc1 : Document host kmods (reply l1) l1 := ⟨.reply (e := reply l1) rfl, instB_sound _ (by decide +kernel)⟩
theorem doc1' : Document host kmods (reply l1') l1' := ⟨.reply (e := reply l1') rfl, instB_sound _ (by decide +kernel)⟩
theorem doc2 : Document host kmods (reply l2) l2 := ⟨.reply (e := reply l2) rfl, instB_sound _ (by decide +kernel)⟩
theorem conf1 : newConfig d (reply l1) true true = .ok (noConfig.setKids l1) := by decide +kernel
theorem conf1' : newConfig d (reply l1') true true = .ok (noConfig.setKids l1') := by decide +kernel
theorem conf2 : newConfig d (reply l2) true true = .ok (noConfig.setKids l2) := by decide +kernel
theorem spelled1 : WellSpelled [u, "urn:types"] kmods l1 := wellSpelled_of (by decide +kernel)
theorem spelled2 : WellSpelled [u, "urn:types"] kmods l2 := wellSpelled_of (by decide +kernel)

/-- The hypotheses of C70 are met with identities. -/
example : (∃ δ x, newDelta d (noConfig.setKids l1) (noConfig.setKids l2) = .ok δ ∧ δ.nc d = .ok x ∧
      ∀ m, Holds pl l1 m → ∃ r, serveCases pl noRivals x.kids m = some r ∧ Holds pl l2 r) ∧
    ∃ x, (newDelta d (noConfig.setKids l1) (noConfig.setKids l2) >>= fun δ => δ.nc d) = .ok x ∧
      serveCases pl noRivals x.kids l1 = some l2 :=
  ⟨C70_server host kmods true loads proper choices _ _ _ _ doc1 doc2
    (lxmlKidsB_sound _ (by decide +kernel)) (lxmlKidsB_sound _ (by decide +kernel)) (singleB_sound _ (by decide +kernel))
    (singleB_sound _ (by decide +kernel)) true true _ _ conf1 conf2 {} (by decide) (Or.inl rfl) (spelled1.spellable spelled2),
   (newDelta d (noConfig.setKids l1) (noConfig.setKids l2) >>= fun δ => δ.nc d).toOption.getD default, by decide +kernel, by decide +kernel⟩

/-- The same module without the choice. -/
def pstmts : List Stmt :=
  [ st "container" "top"
      [ st "list" "item" [st "leaf" "id" (type := str) (isKey := true), st "leaf" "kind" (type := some { arg := "identityref", base := some "b" })]
          [("key", "id")] ] ]
def pmods : List Module := [⟨"demo", "d", modNs, pstmts⟩]
def phost : Host := { host with models := [("demo", (compileTree modNs "demo" (some "d") pstmts).toOption.getD default)] }

theorem pclear : ∀ m ∈ pmods, ∀ s ∈ m.kids, Everywhere (Clear true) s := by
  intro m hm s hs
  obtain rfl := List.mem_singleton.1 hm
  exact (everyListB_sound (P := clearB true) pstmts (by decide +kernel) s hs).imp fun _ => clearB_sound

/-- Two documents with other prefixes, one with the identity `eth` of the module of the leaf. -/
def k1 : List Elem := [el "top" [it "1" [kind "kind" "t" "t:eth"]]]
def k2 : List Elem := [el "top" [it "1" [kind "kind" "x" "x:eth"]]]
def k3 : List Elem := [el "top" [it "1" [kind "kind" "t" "eth"]]]

theorem kmean {a b : List Elem} (ha : Document phost pmods (reply a) a) (hb : Document phost pmods (reply b) b)
    (ra : ∀ k ∈ a, ReadByLxml k) (rb : ∀ k ∈ b, ReadByLxml k) (h1 : newConfig phost.device (reply a) true true = .ok (noConfig.setKids a))
    (h2 : newConfig phost.device (reply b) true true = .ok (noConfig.setKids b)) :
    cfgEq phost.device (noConfig.setKids a) (noConfig.setKids b) = .ok true ↔ SameMeaning (topPlaces pmods) a b :=
  C67_equal phost pmods true (.cons ⟨rfl, by decide +kernel⟩ .nil) (properModulesB_sound (by decide +kernel)) pclear _ _ _ _ ha hb ra rb
    true true _ _ h1 h2

theorem kdoc1 : Document phost pmods (reply k1) k1 := ⟨.reply (e := reply k1) rfl, instB_sound _ (by decide +kernel)⟩
theorem kdoc2 : Document phost pmods (reply k2) k2 := ⟨.reply (e := reply k2) rfl, instB_sound _ (by decide +kernel)⟩
theorem kdoc3 : Document phost pmods (reply k3) k3 := ⟨.reply (e := reply k3) rfl, instB_sound _ (by decide +kernel)⟩

/-- The hypotheses of C67 are met: `t:eth` and `x:eth` mean the same, `t:eth` and `eth` do not. -/
example : SameMeaning (topPlaces pmods) k1 k2 ∧ k1 ≠ k2 ∧ ¬ SameMeaning (topPlaces pmods) k1 k3 := by
  refine ⟨(kmean kdoc1 kdoc2 (lxmlKidsB_sound _ (by decide +kernel)) (lxmlKidsB_sound _ (by decide +kernel)) (by decide +kernel)
    (by decide +kernel)).1 (by decide +kernel), by decide +kernel, fun h => ?_⟩
  have := (kmean kdoc1 kdoc3 (lxmlKidsB_sound _ (by decide +kernel)) (lxmlKidsB_sound _ (by decide +kernel)) (by decide +kernel)
    (by decide +kernel)).2 h
  revert this
  decide +kernel

/-- The hypotheses of C68 are met with identities, also when the delta replaces the entry. -/
example : ∀ opts ∈ [{}, { diffType := .minimumReplace, replaceDepth := 1 }, { diffType := .replace, replaceDepth := 1 }],
    ∃ δ x, newDelta phost.device (noConfig.setKids k1) (noConfig.setKids k3) opts = .ok δ ∧ δ.nc phost.device = .ok x ∧
      ∀ m, Holds (topPlaces pmods) k1 m → ∃ r, serve (topPlaces pmods) x.kids m = some r ∧ Holds (topPlaces pmods) k3 r ∧
        SameMeaning (topPlaces pmods) k3 r :=
  fun opts _ => C68_server phost pmods true (.cons ⟨rfl, by decide +kernel⟩ .nil) (properModulesB_sound (by decide +kernel)) pclear
    _ _ _ _ kdoc1 kdoc3 (lxmlKidsB_sound _ (by decide +kernel)) (lxmlKidsB_sound _ (by decide +kernel)) true true _ _ (by decide +kernel)
    (by decide +kernel) opts (Or.inr (Or.inr (by decide +kernel)))
    ((wellSpelled_of (us := [u, "urn:types"]) (by decide +kernel)).spellable (wellSpelled_of (by decide +kernel)))

/-- Without `Spellable`: the leaf of the first document has no prefix for the namespace of the new identity.  The edit-config
brings its own prefix, but the library cannot add the delta to the config, see C01. -/
theorem C68_unspellable : ∃ l1 l2 x, Document phost pmods (reply l1) l1 ∧ Document phost pmods (reply l2) l2 ∧
    newConfig phost.device (reply l1) true true = .ok (noConfig.setKids l1) ∧
    newConfig phost.device (reply l2) true true = .ok (noConfig.setKids l2) ∧
    (newDelta phost.device (noConfig.setKids l1) (noConfig.setKids l2) >>= fun δ => configAddDelta phost.device (noConfig.setKids l1) δ) =
      .error .configError ∧
    (newDelta phost.device (noConfig.setKids l1) (noConfig.setKids l2) >>= fun δ => δ.nc phost.device) = .ok x ∧
    serve (topPlaces pmods) x.kids l1 = some l2 :=
  ⟨[el "top" [it "1" [lf "kind" "eth"]]], k1,
    (newDelta phost.device (noConfig.setKids [el "top" [it "1" [lf "kind" "eth"]]]) (noConfig.setKids k1) >>= fun δ =>
      δ.nc phost.device).toOption.getD default,
    ⟨.reply (e := reply [el "top" [it "1" [lf "kind" "eth"]]]) rfl, instB_sound _ (by decide +kernel)⟩,
    kdoc1, by decide +kernel, by decide +kernel, by decide +kernel, by decide +kernel, by decide +kernel⟩

end KindsDemo
end NcDiff
