import Verif.Proof.Validate
import Verif.Props.RoundTrip
/-!
# Properties C41 and C42: accepting a config, empty configs, deltas that are given
-/

namespace NcDiff

section
variable {d : Device} {rd : Bool}

theorem flatMap_if {p : Elem → Bool} : ∀ {l : List Elem} {g : Elem → List Elem},
    l.flatMap (fun x => if p x = true then g x else []) = (l.filter p).flatMap g
  | [], _ => rfl
  | x :: r, g => by
    rw [List.flatMap_cons, List.filter_cons, flatMap_if]
    by_cases h : p x = true
    · rw [if_pos h, if_pos h, List.flatMap_cons]
    · rw [if_neg h, if_neg h]; rfl

/-- The content is found in each of the wrappers. -/
theorem C41_sources (e : Elem) (l : List Elem) (h : RootsIn e l) : retrieveConfig e = noConfig.setKids l := by
  unfold retrieveConfig
  show noConfig.setKids _ = _
  congr 1
  cases h with
  | config h => simp only [selectPath, h]; simp [ncTag]
  | data h => simp only [selectPath, h]; simp [ncTag]
  | reply h =>
    simp only [selectPath, h]
    rw [if_pos trivial, ← flatMap_if]
    simp only [decide_eq_true_eq]
    simp [ncTag]
  | edit h =>
    simp only [selectPath, h]
    rw [← flatMap_if]
    simp only [decide_eq_true_eq]
    simp [ncTag]
  | rpc h =>
    simp only [selectPath, h]
    rw [← flatMap_if]
    have : ∀ (ks : List Elem), ks.flatMap (fun x => if x.tag = ncTag "edit-config" then
        x.kids.flatMap (fun y => if y.tag = ncTag "config" then y.kids else []) else []) =
        ((ks.filter (fun k => decide (k.tag = ncTag "edit-config"))).flatMap Elem.kids).flatMap
          (fun x => if decide (x.tag = ncTag "config") = true then x.kids else []) := by
      intro ks
      induction ks with
      | nil => rfl
      | cons x r ih =>
        rw [List.flatMap_cons, ih, List.filter_cons]
        by_cases hx : x.tag = ncTag "edit-config"
        · simp [hx]
        · simp [hx]
    simp only [this]
    simp [ncTag]

/-- Anything else is taken for an empty config, whatever it contains. -/
theorem C41_foreign (e : Elem) (h : Foreign e) (v : Bool) :
    retrieveConfig e = noConfig ∧ newConfig d e v rd = .ok noConfig := by
  have h0 : retrieveConfig e = noConfig := by
    unfold retrieveConfig
    have := h
    simp only [Foreign, List.mem_cons, List.not_mem_nil, or_false, forall_eq_or_imp, forall_eq] at this
    obtain ⟨h1, h2, h3, h4, h5⟩ := this
    simp only [selectPath, if_neg h1, if_neg h2, if_neg h3, if_neg h4, if_neg h5]
    rfl
  refine ⟨h0, ?_⟩
  unfold newConfig
  rw [h0]
  cases v <;> rfl

/-- C41: validation accepts exactly the configs in which everything has a schema node and every node with
children has its keys and no edit-config attributes. -/
theorem C41_accepts (c : Elem) : (∃ c', validateConfig d rd c = .ok c') ↔ Accepted d .root c := by
  constructor
  · rintro ⟨c', h⟩
    unfold validateConfig at h
    obtain ⟨_, _, h⟩ := bind_ok.1 h
    obtain ⟨ks, hks, _⟩ := bind_ok.1 h
    exact (checked c hks).acc
  · intro h
    obtain ⟨r, hr⟩ := accepted_roots h
    obtain ⟨ks, hks⟩ := accepted_ok (rd := rd) c h
    exact ⟨c.setKids ks, by unfold validateConfig; rw [hr]; simp only [bind, Except.bind, hks]; rfl⟩

/-- C41: of an accepted config exactly the outdated nodes and what gets empty without them are removed; a
second validation changes nothing if no list key is outdated. -/
theorem C41_result (c c' : Elem) (h : validateConfig d rd c = .ok c') :
    CleanedTo d rd .root c c' ∧ (KeysCurrent d rd .root c → validateConfig d rd c' = .ok c') := by
  unfold validateConfig at h
  obtain ⟨r, hr, h⟩ := bind_ok.1 h
  obtain ⟨ks, hks, h⟩ := bind_ok.1 h
  cases h
  have hc := checked c hks
  refine ⟨hc.clean, fun hcur => ?_⟩
  have hst := hc.stable hcur
  have hacc : Accepted d .root (c.setKids ks) := (checked (rd := rd) (c.setKids ks) (by simpa using hst)).acc
  obtain ⟨r', hr'⟩ := accepted_roots hacc
  unfold validateConfig
  rw [hr']
  simp only [bind, Except.bind, Elem.kids_setKids, hst]
  cases c; rfl

theorem trimmed_kid {sc : Scope} {e e' : Elem} (h : trimDefaults d sc e = .ok e') {k' : Elem} (hk : k' ∈ e'.kids) :
    ∃ k ∈ e.kids, k'.tag = k.tag ∧ ∀ f, d.lookup sc k.tag = .ok f → trimDefaults d (.node f.node) k = .ok k' := by
  obtain ⟨ks', hk', rfl⟩ := trimDefaults_inv h
  obtain ⟨l, e1, e2, e3⟩ := trimKids_inv hk'
  simp only [Elem.kids_setKids] at hk
  rw [← e2] at hk
  obtain ⟨p, hp, hp2⟩ := List.mem_filterMap.1 hk
  obtain ⟨f, y, hf, ht, hd⟩ := e3 p hp
  rw [hp2] at hd
  have hy : y = k' := by
    by_cases hdr : trimDrops f.node e.kids y = true
    · rw [if_pos hdr] at hd; cases hd
    · rw [if_neg hdr] at hd; injection hd with hd; exact hd.symm
  subst hy
  refine ⟨p.1, by rw [← e1]; exact List.mem_map_of_mem hp, (trim_head ht).1, ?_⟩
  intro g hg
  obtain rfl := Except.ok.inj (hf.symm.trans hg)
  exact ht

theorem keysCurrent_trim : ∀ (e : Elem) {sc : Scope} {e' : Elem}, trimDefaults d sc e = .ok e' →
    KeysCurrent d rd sc e → KeysCurrent d rd sc e' := by
  intro e
  induction e using Elem.ind with
  | h t n a x ks ih =>
    intro sc e' h hcur
    refine ⟨?_, ?_⟩
    · intro k' hk' f hf hl c' hc' hq g hg
      obtain ⟨k, hk, ht, hs⟩ := trimmed_kid h hk'
      rw [ht] at hf
      obtain ⟨c, hc, ht2, _⟩ := trimmed_kid (hs f hf) hc'
      rw [ht2] at hq hg
      exact hcur.here' k hk f hf hl c hc hq g hg
    · intro k' hk' f hf
      obtain ⟨k, hk, ht, hs⟩ := trimmed_kid h hk'
      rw [ht] at hf
      exact ih k hk (hs f hf) (hcur.sub' k hk f hf)

/-- C41: what a validated config is made of.  The defaults are trimmed first; building a config from the
config again changes nothing if no list key is outdated. -/
theorem C41_new_config (e c : Elem) (l : List Elem) (hl : RootsIn e l) (h : newConfig d e true rd = .ok c) :
    ∃ t, TrimmedTo d .root (noConfig.setKids l) t ∧ Accepted d .root t ∧ CleanedTo d rd .root t c ∧
      (KeysCurrent d rd .root (noConfig.setKids l) → newConfig d c true rd = .ok c) := by
  have h' := h
  unfold newConfig at h
  rw [C41_sources e l hl] at h
  obtain ⟨t, ht, hv⟩ := bind_ok.1 h
  rw [if_pos rfl] at hv
  refine ⟨t, (trim_spec _ ht).1, (C41_accepts (rd := rd) t).1 ⟨c, hv⟩, (C41_result t c hv).1, fun hcur => ?_⟩
  unfold newConfig
  rw [retrieve_config (newConfig_root h')]
  have htc : trimDefaults d .root c = .ok c := by
    unfold validateConfig at hv
    obtain ⟨_, _, hv⟩ := bind_ok.1 hv
    obtain ⟨ks, hks, hv⟩ := bind_ok.1 hv
    cases hv
    exact validate_trimmed t (trim_spec _ ht).2.1 hks
  rw [htc]
  exact (C41_result t c hv).2 (keysCurrent_trim _ ht hcur)

/-! ## C42 -/

/-- C42: a config is false exactly if it has no content. -/
theorem C42_bool (c : Elem) (h : ValidConfig d c) (ht : c.tag = ncTag "config") (ha : c.attrs = []) :
    ∃ b, configBool d c = .ok b ∧ (b = false ↔ c.kids = []) := by
  have he : newConfig d emptyConfig false = .ok emptyConfig := rfl
  have hv : ValidConfig d emptyConfig := ⟨⟨by simp [emptyConfig, Elem.new], by simp [emptyConfig, Elem.new],
    by simp [emptyConfig, Elem.new], by simp [emptyConfig, Elem.new]⟩, rfl⟩
  obtain ⟨r, hr, hri⟩ := cfgEq_iff h hv
  refine ⟨!r, by unfold configBool; rw [he]; simp only [bind, Except.bind, hr]; rfl, ?_⟩
  rw [show (!r) = false ↔ r = true by cases r <;> simp, hri]
  constructor
  · rintro ⟨h1, _⟩
    cases h1 with
    | mk _ _ _ kids =>
      rw [List.eq_nil_iff_forall_not_mem]
      intro x hx
      obtain ⟨y, hy, _⟩ := kids x hx
      exact absurd hy (by simp [emptyConfig, Elem.new])
  · intro hk
    have hp : parseTextAt d .root c = parseTextAt d .root emptyConfig := by
      unfold parseTextAt
      simp only [h.noText]; rfl
    refine ⟨⟨ht, hp, by rw [ha]; simp, by rw [hk]; simp, by rw [hk]; simp, ?_⟩,
      ⟨ht.symm, hp.symm, by simp [emptyConfig, Elem.new], by simp [emptyConfig, Elem.new],
       by simp [emptyConfig, Elem.new], ?_⟩⟩
    · intro x y hb; rw [hk] at hb; exact absurd (List.Sublist.length_le hb) (by simp)
    · intro x y hb; exact absurd (List.Sublist.length_le hb) (by simp [emptyConfig, Elem.new])

/-- C42: a delta that is given as an edit-config leads to what applying the edit-config gives; and adding
the delta gives that config. -/
theorem C42_given_delta (opts : Opts) (c x : Elem) (δ : Delta) (h : newDeltaOf d c x opts = .ok δ) :
    δ.src = c ∧ δ.opts = opts ∧ configAddElem d c (retrieveConfig x) = .ok δ.dst ∧
      (Transition d c δ.dst → RootSafe d opts δ.dst →
        ∃ r, configAddDelta d c δ = .ok r ∧ cfgEq d r δ.dst = .ok true) := by
  unfold newDeltaOf at h
  obtain ⟨dst, h1, h2⟩ := bind_ok.1 h
  cases h2
  refine ⟨rfl, rfl, h1, fun ht hs => ?_⟩
  obtain ⟨δ', r, e1, e2, e3⟩ := C01_round_trip d opts c dst ht hs
  rw [newDelta_ok ht.src.valid.valid ht.dst.valid.valid] at e1
  cases e1
  exact ⟨r, e2, e3⟩

end

/-! ## The hypotheses can be met; what validation does not find -/

namespace Demo

/-- A model with an obsolete leaf, a deprecated container and a list whose key is obsolete. -/
def oldS : SNode :=
  .mk { tag := q "sys", ntype := .container }
    [ leafS "host",
      .mk { tag := q "gone", ntype := .leaf, status := .obsolete } [],
      .mk { tag := q "dep", ntype := .container, status := .deprecated } [leafS "w"],
      .mk { tag := q "box", ntype := .container } [.mk { tag := q "gone", ntype := .leaf, status := .obsolete } []],
      .mk { tag := q "ent", ntype := .list, keyNames := ["id"] }
        [.mk { tag := q "id", ntype := .leaf, isKey := true, status := .obsolete } [], leafS "val"] ]

def oldDev : Device :=
  { namespaces := [("demo", "d", u)], roots := [(q "sys", "demo")], models := [("demo", [oldS])] }

/-- A reply of a device. -/
def oldReply : Elem := .mk (ncTag "rpc-reply") ns [] none [.mk (ncTag "data") ns [] none
  [el "sys" [lf "host" "h", lf "gone" "1", el "box" [lf "gone" "2"], el "dep" [lf "w" "3"]]]]

example : RootsIn oldReply [el "sys" [lf "host" "h", lf "gone" "1", el "box" [lf "gone" "2"], el "dep" [lf "w" "3"]]] :=
  .reply rfl

example : newConfig oldDev oldReply true true = .ok (noConfig.setKids [el "sys" [lf "host" "h"]]) ∧
    newConfig oldDev oldReply true false = .ok (noConfig.setKids [el "sys" [lf "host" "h", el "dep" [lf "w" "3"]]]) := by
  decide +kernel

/-- Executable `KeysCurrent`. -/
def keysCurrentB (d : Device) (rd : Bool) : Scope → Elem → Bool :=
  deepB d (fun sc e => e.kids.all (fun k => match d.lookup sc k.tag with
    | .error _ => true
    | .ok f => !(f.node.ntype = .list) || k.kids.all (fun c => !decide (c.tag ∈ f.node.keys) ||
        match d.lookup (.node f.node) c.tag with
        | .error _ => true
        | .ok g => decide (g.node.ntype = .leaf) && !(g.node.info.status = .obsolete ||
            (g.node.info.status = .deprecated && rd)))))

theorem keysCurrentB_sound {d : Device} {rd : Bool} {sc : Scope} {e : Elem} (h : keysCurrentB d rd sc e = true) :
    KeysCurrent d rd sc e := by
  refine deepB_sound (fun sc e h k hk f hf hl c hc hq g hg => ?_) e sc h
  have := List.all_eq_true.1 h k hk
  simp only [hf, hl, decide_true, Bool.not_true, Bool.false_or] at this
  have := List.all_eq_true.1 this c hc
  simp only [hq, decide_true, Bool.not_true, Bool.false_or, hg, Bool.and_eq_true, decide_eq_true_eq] at this
  refine ⟨this.1, ?_⟩
  unfold Outdated
  have h2 := this.2
  intro ho
  rcases ho with ho | ⟨h1, h3⟩
  · simp [ho] at h2
  · simp [h1, h3] at h2

example : ∃ t, TrimmedTo oldDev .root (noConfig.setKids [el "sys" [lf "host" "h", lf "gone" "1", el "box" [lf "gone" "2"],
      el "dep" [lf "w" "3"]]]) t ∧ Accepted oldDev .root t ∧
    CleanedTo oldDev true .root t (noConfig.setKids [el "sys" [lf "host" "h"]]) ∧
    newConfig oldDev (noConfig.setKids [el "sys" [lf "host" "h"]]) true true =
      .ok (noConfig.setKids [el "sys" [lf "host" "h"]]) := by
  obtain ⟨t, h1, h2, h3, h4⟩ := C41_new_config (d := oldDev) (rd := true) oldReply
    (noConfig.setKids [el "sys" [lf "host" "h"]]) _ (.reply rfl) (by decide +kernel)
  exact ⟨t, h1, h2, h3, h4 (keysCurrentB_sound (by decide +kernel))⟩

example : Foreign (el "sys" [lf "host" "h"]) := by
  intro n _ h
  exact absurd (congrArg QName.ns h) (by show ¬ u = ncUrl; decide)

/-- An entry without its key, a container with an operation, and a node that no model knows are not
accepted. -/
example : ¬ Accepted dev .root (cfg [el "top" [el "item" [lf "val" "1"]]]) ∧
    ¬ Accepted dev .root (cfg [.mk (q "top") ns [(.operation, .str "merge")] none [lf "a" "1"]]) ∧
    ¬ Accepted dev .root (cfg [el "top" [lf "zzz" "1"]]) := by
  refine ⟨?_, ?_, ?_⟩ <;> rw [← C41_accepts (rd := false)] <;> rintro ⟨c', h⟩ <;> revert h
  · rw [show validateConfig dev false (cfg [el "top" [el "item" [lf "val" "1"]]]) = .error .configError by decide +kernel]
    simp
  · rw [show validateConfig dev false (cfg [.mk (q "top") ns [(.operation, .str "merge")] none [lf "a" "1"]]) =
      .error .configError by decide +kernel]
    simp
  · rw [show validateConfig dev false (cfg [el "top" [lf "zzz" "1"]]) = .error .configError by decide +kernel]
    simp

/-- Without "no list key is outdated" a second validation can fail: the first one removed the key. -/
theorem C41_false_for_outdated_keys : ∃ c c', validateConfig oldDev false c = .ok c' ∧
    validateConfig oldDev false c' = .error .configError :=
  ⟨cfg [el "sys" [el "ent" [lf "id" "1", lf "val" "2"]]], cfg [el "sys" [el "ent" [lf "val" "2"]]], by decide +kernel,
    by decide +kernel⟩

/-- Validation does not find edit-config attributes of nodes without children, and not a leaf that is
given twice. -/
theorem C41_not_found : ∃ c, validateConfig dev false c = .ok c ∧ ¬ ValidConfig dev c ∧
    ∃ k ∈ c.kids, ∃ x ∈ k.kids, x.get .operation = some (.str "delete") := by
  refine ⟨cfg [el "top" [lf "a" "1", lf "a" "2", .mk (q "x") ns [(.operation, .str "delete")] (some "1") []]],
    by decide +kernel, ?_, _, by simp [cfg]; rfl, .mk (q "x") ns [(.operation, .str "delete")] (some "1") [], by simp [el], rfl⟩
  intro h
  cases h.valid with
  | mk _ _ _ sub =>
    have := sub _ (by simp [cfg]; rfl) ⟨topS, [0, 0], false⟩ rfl
    cases this with
    | mk _ _ unique _ =>
      have hs : sameB dev (.node topS) (lf "a" "1") (lf "a" "2") = true := by decide +kernel
      have hu : ∀ {l : List Elem} {x y z : Elem}, [x, y, z].Pairwise (fun a b => ¬ SameInstance dev (.node topS) a b) →
          ¬ SameInstance dev (.node topS) x y := by
        intro _ x y z h; rw [List.pairwise_cons] at h; exact h.1 y (by simp)
      exact hu (l := []) unique ((sameB_iff ..).1 hs)

example : ∃ b, configBool dev rt1 = .ok b ∧ (b = false ↔ rt1.kids = []) :=
  C42_bool rt1 rt_transition.src.valid rt_transition.srcTag rt_transition.src.bare.here'

/-- A delta that is given. -/
def givenX : Elem := cfg [el "top" [lf "a" "2", .mk (q "item") ns [(.operation, .str "delete")] none [lf "name" "y"], item "z" "3"]]

def given1 : Elem := cfg [el "top" [lf "a" "1", item "x" "1", item "y" "2"]]
def given2 : Elem := cfg [el "top" [lf "a" "2", item "x" "1", item "z" "3"]]

example : newDeltaOf dev given1 givenX = .ok { src := given1, dst := given2 } ∧
    Transition dev given1 given2 ∧ RootSafe dev {} given2 :=
  ⟨by rfl, transitionB_sound (by decide +kernel), Or.inl rfl⟩

end Demo

end NcDiff
