import Verif.Spec.Objects
import Verif.Proof.Tree
/-!
# Proofs about objects that share trees
-/

namespace NcDiff.Objects

/-- Nothing that existed has changed. -/
structure Keep (w w' : World) : Prop where
  len : w.trees.length ≤ w'.trees.length
  configs : w.configs <+: w'.configs
  deltas : w.deltas <+: w'.deltas
  same : ∀ r < w.trees.length, w'.trees[r]? = w.trees[r]?

theorem Keep.refl (w : World) : Keep w w := ⟨Nat.le_refl _, List.prefix_rfl, List.prefix_rfl, fun _ _ => rfl⟩

theorem Keep.trans {a b c : World} (h : Keep a b) (k : Keep b c) : Keep a c :=
  ⟨Nat.le_trans h.len k.len, h.configs.trans k.configs, h.deltas.trans k.deltas,
    fun r hr => (k.same r (Nat.lt_of_lt_of_le hr h.len)).trans (h.same r hr)⟩

theorem keep_alloc (w : World) (e : Elem) : Keep w (w.alloc e).2 := by
  refine ⟨?_, List.prefix_rfl, List.prefix_rfl, fun r hr => ?_⟩
  · simp [World.alloc]
  · exact List.getElem?_append_left hr

theorem Keep.write {w w1 : World} (h : Keep w w1) {r : Nat} (hr : w.trees.length ≤ r) (e : Elem) : Keep w (w1.write r e) := by
  refine ⟨?_, h.configs, h.deltas, fun q hq => ?_⟩
  · simpa [World.write] using h.len
  · rw [← h.same q hq]
    exact List.getElem?_set_ne (by omega)

theorem Keep.tree {w w' : World} (h : Keep w w') {r : Nat} (hr : r < w.trees.length) : w'.tree r = w.tree r := by
  unfold World.tree; rw [h.same r hr]

theorem prefix_getElem? {α : Type _} {a b : List α} (h : a <+: b) {i : Nat} (hi : i < a.length) : b[i]? = a[i]? := by
  obtain ⟨t, rfl⟩ := h
  exact List.getElem?_append_left hi

theorem ele_lt {w : World} (hw : w.Wf) {c : Nat} (hc : c < w.configs.length) : w.ele c < w.trees.length := by
  unfold World.ele
  rw [List.getElem?_eq_getElem hc]
  exact hw.configs _ (List.getElem_mem hc)

theorem ele_eq {w w' : World} (h : w.configs <+: w'.configs) {c : Nat} (hc : c < w.configs.length) : w'.ele c = w.ele c := by
  unfold World.ele; rw [prefix_getElem? h hc]

theorem Keep.config {w w' : World} (h : Keep w w') (hw : w.Wf) {c : Nat} (hc : c < w.configs.length) :
    w'.config c = w.config c := by
  unfold World.config
  rw [ele_eq h.configs hc, h.tree (ele_lt hw hc)]

theorem deltaObj_mem {w : World} {k : Nat} (hk : k < w.deltas.length) : w.deltaObj k ∈ w.deltas := by
  unfold World.deltaObj
  rw [List.getElem?_eq_getElem hk]
  exact List.getElem_mem hk

theorem deltaObj_eq {w w' : World} (h : w.deltas <+: w'.deltas) {k : Nat} (hk : k < w.deltas.length) :
    w'.deltaObj k = w.deltaObj k := by
  unfold World.deltaObj; rw [prefix_getElem? h hk]

theorem Keep.delta {w w' : World} (h : Keep w w') (hw : w.Wf) {k : Nat} (hk : k < w.deltas.length) :
    w'.delta (w'.deltaObj k) = w.delta (w.deltaObj k) := by
  have := hw.deltas _ (deltaObj_mem hk)
  unfold World.delta
  rw [deltaObj_eq h.deltas hk, h.config hw this.1, h.config hw this.2]

variable {d : Device} {junk : Nat → Elem}

/-! ## Constructing -/

/-- What `construct` computes. -/
def built (d : Device) (t : Elem) (v rd : Bool) : Except Err Elem := do
  let t ← trimDefaults d .root t
  if v then validateConfig d rd t else pure t

theorem construct_eq (w : World) (r : Nat) (v rd : Bool) :
    construct d junk w r v rd =
      match built d (w.tree r) v rd with
      | .error e => (.error e, w.write r (junk r))
      | .ok t => (.ok (.config w.configs.length), { w.write r t with configs := w.configs ++ [r] }) := by
  unfold construct built
  cases trimDefaults d .root (w.tree r) with
  | error e => rfl
  | ok t =>
    show (match (if v then validateConfig d rd t else .ok t) with
      | .error e => _
      | .ok t' => _) = _
    cases v <;> rfl

theorem construct_keep {w w1 : World} (h : Keep w w1) {r : Nat} (hr : w.trees.length ≤ r) (v rd : Bool) :
    Keep w (construct d junk w1 r v rd).2 := by
  rw [construct_eq]
  cases built d (w1.tree r) v rd with
  | error e => exact h.write hr _
  | ok t =>
    have k := h.write hr t
    exact ⟨k.len, k.configs.trans (List.prefix_append _ _), k.deltas, k.same⟩

theorem wf_write {w : World} (hw : w.Wf) (r : Nat) (e : Elem) : (w.write r e).Wf :=
  ⟨fun q hq => by simpa [World.write] using hw.configs q hq, hw.deltas⟩

theorem wf_alloc {w : World} (hw : w.Wf) (e : Elem) : (w.alloc e).2.Wf :=
  ⟨fun q hq => by have := hw.configs q hq; simp [World.alloc]; omega, hw.deltas⟩

theorem wf_newConfig {w : World} (hw : w.Wf) {r : Nat} (hr : r < w.trees.length) : World.Wf { w with configs := w.configs ++ [r] } :=
  ⟨fun q hq => by
      rcases List.mem_append.1 hq with h | h
      · exact hw.configs q h
      · rw [List.mem_singleton.1 h]; exact hr,
    fun δ hδ => by
      have := hw.deltas δ hδ
      simp only [List.length_append, List.length_singleton]; omega⟩

theorem construct_wf {w : World} (hw : w.Wf) {r : Nat} (hr : r < w.trees.length) (v rd : Bool) :
    (construct d junk w r v rd).2.Wf := by
  rw [construct_eq]
  cases built d (w.tree r) v rd with
  | error e => exact wf_write hw _ _
  | ok t => exact wf_newConfig (wf_write hw r t) (by simpa [World.write] using hr)

theorem tree_write {w : World} {r : Nat} (hr : r < w.trees.length) (e : Elem) : (w.write r e).tree r = e := by
  unfold World.tree World.write
  simp [hr]

theorem tree_alloc (w : World) (e : Elem) : (w.alloc e).2.tree (w.alloc e).1 = e := by
  unfold World.tree World.alloc
  simp

theorem alloc_lt (w : World) (e : Elem) : (w.alloc e).1 < (w.alloc e).2.trees.length := by
  simp [World.alloc]

theorem construct_shows {w : World} {r : Nat} (hr : r < w.trees.length) (v rd : Bool) :
    Shows (construct d junk w r v rd) ((built d (w.tree r) v rd).map .config) := by
  rw [construct_eq]
  cases built d (w.tree r) v rd with
  | error e => rfl
  | ok t =>
    refine ⟨_, rfl, by simp, ?_⟩
    have : World.ele { w.write r t with configs := w.configs ++ [r] } w.configs.length = r := by simp [World.ele]
    unfold World.config
    rw [this]
    exact tree_write hr t

theorem fromElement_keep (w : World) (r : Nat) (v rd : Bool) : Keep w (fromElement d junk w r v rd).2 :=
  construct_keep (keep_alloc _ _) (by simp [World.alloc]) v rd

theorem fromElement_wf {w : World} (hw : w.Wf) (r : Nat) (v rd : Bool) : (fromElement d junk w r v rd).2.Wf :=
  construct_wf (wf_alloc hw _) (alloc_lt _ _) v rd

theorem fromElement_shows (w : World) (r : Nat) (v rd : Bool) :
    Shows (fromElement d junk w r v rd) ((newConfig d (w.tree r) v rd).map .config) := by
  have := construct_shows (d := d) (junk := junk) (alloc_lt w (retrieveConfig (w.tree r))) v rd
  rw [tree_alloc] at this
  exact this

/-! ## The calculator -/

theorem calculate_keep (w : World) (r1 r2 : Nat) (res : Except Err Elem) : Keep w (calculate junk w r1 r2 res).2 := by
  have h : Keep w ((w.deepcopy r1).2.deepcopy r2).2 := (keep_alloc _ _).trans (keep_alloc _ _)
  have h1 : w.trees.length ≤ (w.deepcopy r1).1 := Nat.le_refl _
  have h2 : w.trees.length ≤ ((w.deepcopy r1).2.deepcopy r2).1 := by simp [World.deepcopy, World.alloc]
  unfold calculate
  cases res with
  | error e => exact (h.write h1 _).write h2 _
  | ok t => exact (h.write h1 _).write h2 _

theorem calculate_wf {w : World} (hw : w.Wf) (r1 r2 : Nat) (res : Except Err Elem) : (calculate junk w r1 r2 res).2.Wf := by
  have h : ((w.deepcopy r1).2.deepcopy r2).2.Wf := wf_alloc (wf_alloc hw _) _
  unfold calculate
  cases res with
  | error e => exact wf_write (wf_write h _ _) _ _
  | ok t => exact wf_write (wf_write h _ _) _ _

theorem calculate_configs (w : World) (r1 r2 : Nat) (res : Except Err Elem) :
    (calculate junk w r1 r2 res).2.configs = w.configs ∧ (calculate junk w r1 r2 res).2.deltas = w.deltas := by
  unfold calculate; cases res <;> exact ⟨rfl, rfl⟩

theorem calculate_error (w : World) (r1 r2 : Nat) (e : Err) : (calculate junk w r1 r2 (.error e)).1 = .error e := rfl

theorem calculate_ok (w : World) (r1 r2 : Nat) (t : Elem) :
    (calculate junk w r1 r2 (.ok t)).1 = .ok w.trees.length ∧
    w.trees.length < (calculate junk w r1 r2 (.ok t)).2.trees.length ∧
    (calculate junk w r1 r2 (.ok t)).2.tree w.trees.length = t := by
  refine ⟨rfl, by simp [calculate, World.write, World.deepcopy, World.alloc], ?_⟩
  unfold World.tree
  simp only [calculate, World.write, World.deepcopy, World.alloc]
  rw [List.getElem?_set_ne (by simp), List.getElem?_set_self (by simp)]
  rfl

/-! ## Operators -/

theorem addTree_keep (w : World) (c r : Nat) : Keep w (addTree d junk w c r).2 := by
  have h := calculate_keep (junk := junk) w (w.ele c) r (calcAdd d (w.config c) (w.tree r))
  unfold addTree
  cases hx : (calculate junk w (w.ele c) r (calcAdd d (w.config c) (w.tree r))).1 with
  | error e => simpa only [hx] using h
  | ok a => simpa only [hx] using h.trans (fromElement_keep _ _ _ _)

theorem addTree_wf {w : World} (hw : w.Wf) (c r : Nat) : (addTree d junk w c r).2.Wf := by
  have h := calculate_wf (junk := junk) hw (w.ele c) r (calcAdd d (w.config c) (w.tree r))
  unfold addTree
  cases hx : (calculate junk w (w.ele c) r (calcAdd d (w.config c) (w.tree r))).1 with
  | error e => simpa only [hx] using h
  | ok a => simpa only [hx] using fromElement_wf h _ _ _

theorem addTree_shows (w : World) (c r : Nat) :
    Shows (addTree d junk w c r) ((configAddElem d (w.config c) (w.tree r)).map .config) := by
  unfold addTree configAddElem
  cases hr : calcAdd d (w.config c) (w.tree r) with
  | error e => rfl
  | ok t =>
    obtain ⟨h1, h2, h3⟩ := calculate_ok (junk := junk) w (w.ele c) r t
    have := fromElement_shows (d := d) (junk := junk) (calculate junk w (w.ele c) r (.ok t)).2 w.trees.length false false
    rw [h3] at this
    simp only [h1]
    exact this

theorem addConfig_keep (w : World) (c c' : Nat) : Keep w (addConfig d junk w c c').2 := by
  unfold addConfig
  cases compatible d [w.config c, w.config c'] with
  | error e => exact .refl w
  | ok _ => exact addTree_keep w c _

theorem addConfig_wf {w : World} (hw : w.Wf) (c c' : Nat) : (addConfig d junk w c c').2.Wf := by
  unfold addConfig
  cases compatible d [w.config c, w.config c'] with
  | error e => exact hw
  | ok _ => exact addTree_wf hw c _

theorem addConfig_shows (w : World) (c c' : Nat) :
    Shows (addConfig d junk w c c') ((configAdd d (w.config c) (w.config c')).map .config) := by
  unfold addConfig configAdd
  cases compatible d [w.config c, w.config c'] with
  | error e => rfl
  | ok _ => exact addTree_shows w c _

theorem newDelta_keep (w : World) (s t : Nat) (o : Opts) (sh : Option (Nat × (Nat → List Nat))) :
    Keep w (newDelta d w s t o sh).2 := by
  unfold newDelta
  cases compatible d [w.config s, w.config t] with
  | error e => exact .refl w
  | ok _ => exact ⟨Nat.le_refl _, List.prefix_rfl, List.prefix_append _ _, fun _ _ => rfl⟩

theorem wf_newDelta {w : World} (hw : w.Wf) {δ : DeltaObj} (hs : δ.src < w.configs.length) (ht : δ.dst < w.configs.length) :
    World.Wf { w with deltas := w.deltas ++ [δ] } :=
  ⟨hw.configs, fun x hx => by
    rcases List.mem_append.1 hx with h | h
    · exact hw.deltas x h
    · rw [List.mem_singleton.1 h]; exact ⟨hs, ht⟩⟩

theorem newDelta_wf {w : World} (hw : w.Wf) {s t : Nat} (hs : s < w.configs.length) (ht : t < w.configs.length) (o : Opts)
    (sh : Option (Nat × (Nat → List Nat))) : (newDelta d w s t o sh).2.Wf := by
  unfold newDelta
  cases compatible d [w.config s, w.config t] with
  | error e => exact hw
  | ok _ => exact wf_newDelta hw hs ht

theorem newDelta_cases (w : World) (s t : Nat) (o : Opts) (sh : Option (Nat × (Nat → List Nat))) :
    (∃ e, compatible d [w.config s, w.config t] = .error e ∧ newDelta d w s t o sh = (.error e, w)) ∨
    (compatible d [w.config s, w.config t] = .ok () ∧
      newDelta d w s t o sh = (.ok (.delta w.deltas.length), { w with deltas := w.deltas ++ [⟨s, t, o, sh⟩] })) := by
  unfold newDelta
  cases h : compatible d [w.config s, w.config t] with
  | error e => exact .inl ⟨e, rfl, rfl⟩
  | ok _ => exact .inr ⟨rfl, rfl⟩

theorem deltaObj_last (w : World) (δ : DeltaObj) : World.deltaObj { w with deltas := w.deltas ++ [δ] } w.deltas.length = δ := by
  simp [World.deltaObj]

theorem newDelta_shows (w : World) (s t : Nat) (o : Opts) (sh : Option (Nat × (Nat → List Nat))) :
    Shows (newDelta d w s t o sh) ((NcDiff.newDelta d (w.config s) (w.config t) o sh).map .delta) := by
  unfold NcDiff.newDelta
  rcases newDelta_cases (d := d) w s t o sh with ⟨e, hc, h⟩ | ⟨hc, h⟩
  · rw [h, hc]; rfl
  · rw [h, hc]
    refine ⟨_, rfl, by simp, ?_⟩
    dsimp only
    rw [deltaObj_last]
    rfl

theorem readNc_keep (w : World) (k : Nat) : Keep w (readNc d junk w k).2 := calculate_keep _ _ _ _

theorem readNc_wf {w : World} (hw : w.Wf) (k : Nat) : (readNc d junk w k).2.Wf := calculate_wf hw _ _ _

theorem deltaAdd_keep (w : World) (k c : Nat) : Keep w (deltaAdd d junk w k c).2 := by
  have h := readNc_keep (d := d) (junk := junk) w k
  unfold deltaAdd
  cases hx : (readNc d junk w k).1 with
  | error e => simpa only [hx] using h
  | ok a => simpa only [hx] using h.trans (addTree_keep _ _ _)

theorem deltaAdd_wf {w : World} (hw : w.Wf) (k c : Nat) : (deltaAdd d junk w k c).2.Wf := by
  have h := readNc_wf (d := d) (junk := junk) hw k
  unfold deltaAdd
  cases hx : (readNc d junk w k).1 with
  | error e => simpa only [hx] using h
  | ok a => simpa only [hx] using addTree_wf h _ _

theorem deltaAdd_shows {w : World} (hw : w.Wf) {k c : Nat} (hc : c < w.configs.length) :
    Shows (deltaAdd d junk w k c) ((do
      let x ← (w.delta (w.deltaObj k)).nc d
      configAddElem d (w.config c) x).map .config) := by
  have hk := readNc_keep (d := d) (junk := junk) w k
  unfold deltaAdd
  unfold readNc at hk ⊢
  cases hr : (w.delta (w.deltaObj k)).nc d with
  | error e => rfl
  | ok t =>
    rw [hr] at hk
    obtain ⟨h1, h2, h3⟩ := calculate_ok (junk := junk) w (w.ele (w.deltaObj k).dst) (w.ele (w.deltaObj k).src) t
    have := addTree_shows (d := d) (junk := junk)
      (calculate junk w (w.ele (w.deltaObj k).dst) (w.ele (w.deltaObj k).src) (.ok t)).2 c w.trees.length
    rw [h3, hk.config hw hc] at this
    simp only [h1]
    exact this

theorem addDelta_eq (w : World) (c k : Nat) :
    addDelta d junk w c k =
      match compatible d [w.config c, w.config (w.deltaObj k).src, w.config (w.deltaObj k).dst] with
      | .error e => (.error e, w)
      | .ok _ => deltaAdd d junk w k c := rfl

theorem addDelta_keep (w : World) (c k : Nat) : Keep w (addDelta d junk w c k).2 := by
  rw [addDelta_eq]
  cases compatible d [w.config c, w.config (w.deltaObj k).src, w.config (w.deltaObj k).dst] with
  | error e => exact .refl w
  | ok _ => exact deltaAdd_keep w k c

theorem addDelta_wf {w : World} (hw : w.Wf) (c k : Nat) : (addDelta d junk w c k).2.Wf := by
  rw [addDelta_eq]
  cases compatible d [w.config c, w.config (w.deltaObj k).src, w.config (w.deltaObj k).dst] with
  | error e => exact hw
  | ok _ => exact deltaAdd_wf hw k c

theorem addDelta_shows {w : World} (hw : w.Wf) {c k : Nat} (hc : c < w.configs.length) :
    Shows (addDelta d junk w c k) ((configAddDelta d (w.config c) (w.delta (w.deltaObj k))).map .config) := by
  rw [addDelta_eq]
  unfold configAddDelta
  show Shows _ (Except.map _ (compatible d [w.config c, w.config (w.deltaObj k).src, w.config (w.deltaObj k).dst] >>= fun _ => _))
  cases compatible d [w.config c, w.config (w.deltaObj k).src, w.config (w.deltaObj k).dst] with
  | error e => rfl
  | ok _ => exact deltaAdd_shows hw hc

theorem subDelta_keep (w : World) (c k : Nat) : Keep w (subDelta d junk w c k).2 := by
  have h : Keep w (negate d w k).2 := newDelta_keep _ _ _ _ _
  unfold subDelta
  cases hx : (negate d w k).1 with
  | error e => simpa only [hx] using h
  | ok r =>
    cases r with
    | delta k' => simpa only [hx] using h.trans (addDelta_keep _ _ _)
    | config _ => simpa only [hx] using h
    | bool _ => simpa only [hx] using h
    | tree _ => simpa only [hx] using h

theorem negate_wf {w : World} (hw : w.Wf) {k : Nat} (hk : k < w.deltas.length) : (negate d w k).2.Wf :=
  newDelta_wf hw (hw.deltas _ (deltaObj_mem hk)).2 (hw.deltas _ (deltaObj_mem hk)).1 _ _

theorem subDelta_wf {w : World} (hw : w.Wf) (c : Nat) {k : Nat} (hk : k < w.deltas.length) : (subDelta d junk w c k).2.Wf := by
  have h : (negate d w k).2.Wf := negate_wf hw hk
  unfold subDelta
  cases hx : (negate d w k).1 with
  | error e => simpa only [hx] using h
  | ok r =>
    cases r with
    | delta k' => simpa only [hx] using addDelta_wf h _ _
    | config _ => simpa only [hx] using h
    | bool _ => simpa only [hx] using h
    | tree _ => simpa only [hx] using h

theorem subDelta_shows {w : World} (hw : w.Wf) {c k : Nat} (hc : c < w.configs.length) (hk : k < w.deltas.length) :
    Shows (subDelta d junk w c k) ((configSubDelta d (w.config c) (w.delta (w.deltaObj k))).map .config) := by
  have hn : (w.delta (w.deltaObj k)).neg d = NcDiff.newDelta d (w.config (w.deltaObj k).dst) (w.config (w.deltaObj k).src) := rfl
  unfold subDelta configSubDelta
  rw [hn]
  unfold NcDiff.newDelta negate
  have hwf := negate_wf (d := d) hw hk
  have hke : Keep w (negate d w k).2 := newDelta_keep _ _ _ _ _
  unfold negate at hwf hke
  rcases newDelta_cases (d := d) w (w.deltaObj k).dst (w.deltaObj k).src {} none with ⟨e, h, h'⟩ | ⟨h, h'⟩
  · rw [h, h']; rfl
  · rw [h'] at hwf hke
    rw [h, h']
    have := addDelta_shows (d := d) (junk := junk) (c := c) (k := w.deltas.length) hwf
      (Nat.lt_of_lt_of_le hc hke.configs.length_le)
    dsimp only at this ⊢
    rw [deltaObj_last, hke.config hw hc] at this
    exact this

theorem deltaOf_cases (w : World) (s r : Nat) (o : Opts) (sh : Option (Nat × (Nat → List Nat))) :
    let x := addTree d junk (w.alloc (retrieveConfig (w.tree r))).2 s (w.alloc (retrieveConfig (w.tree r))).1
    (∃ e, x.1 = .error e ∧ deltaOf d junk w s r o sh = (.error e, x.2)) ∨
    (∃ c, x.1 = .ok (.config c) ∧ deltaOf d junk w s r o sh =
        (.ok (.delta x.2.deltas.length), { x.2 with deltas := x.2.deltas ++ [⟨s, c, o, sh⟩] })) ∨
    (∃ y, (∀ c, y ≠ .config c) ∧ x.1 = .ok y ∧ deltaOf d junk w s r o sh = (.ok y, x.2)) := by
  intro x
  have : deltaOf d junk w s r o sh = match x.1 with
    | .ok (.config c) => (.ok (.delta x.2.deltas.length), { x.2 with deltas := x.2.deltas ++ [⟨s, c, o, sh⟩] })
    | .ok r => (.ok r, x.2)
    | .error e => (.error e, x.2) := rfl
  rw [this]
  cases h : x.1 with
  | error e => exact .inl ⟨e, rfl, rfl⟩
  | ok y =>
    cases y with
    | config c => exact .inr (.inl ⟨c, rfl, rfl⟩)
    | delta k => exact .inr (.inr ⟨_, fun c hc => Result.noConfusion hc, rfl, rfl⟩)
    | bool k => exact .inr (.inr ⟨_, fun c hc => Result.noConfusion hc, rfl, rfl⟩)
    | tree k => exact .inr (.inr ⟨_, fun c hc => Result.noConfusion hc, rfl, rfl⟩)

theorem deltaOf_keep (w : World) (s r : Nat) (o : Opts) (sh : Option (Nat × (Nat → List Nat))) :
    Keep w (deltaOf d junk w s r o sh).2 := by
  have h : Keep w (addTree d junk (w.alloc (retrieveConfig (w.tree r))).2 s (w.alloc (retrieveConfig (w.tree r))).1).2 :=
    (keep_alloc _ _).trans (addTree_keep _ _ _)
  rcases deltaOf_cases (d := d) (junk := junk) w s r o sh with ⟨e, _, h'⟩ | ⟨c, _, h'⟩ | ⟨y, _, _, h'⟩
  · rw [h']; exact h
  · rw [h']; exact ⟨h.len, h.configs, h.deltas.trans (List.prefix_append _ _), h.same⟩
  · rw [h']; exact h

theorem deltaOf_sum (w : World) {s r : Nat} (hw : w.Wf) (hs : s < w.configs.length) :
    Shows (addTree d junk (w.alloc (retrieveConfig (w.tree r))).2 s (w.alloc (retrieveConfig (w.tree r))).1)
      ((configAddElem d (w.config s) (retrieveConfig (w.tree r))).map .config) := by
  have := addTree_shows (d := d) (junk := junk) (w.alloc (retrieveConfig (w.tree r))).2 s (w.alloc (retrieveConfig (w.tree r))).1
  rwa [tree_alloc, (keep_alloc _ _).config hw hs] at this

theorem deltaOf_wf {w : World} (hw : w.Wf) {s : Nat} (hs : s < w.configs.length) (r : Nat) (o : Opts)
    (sh : Option (Nat × (Nat → List Nat))) : (deltaOf d junk w s r o sh).2.Wf := by
  have h := addTree_wf (d := d) (junk := junk) (wf_alloc hw (retrieveConfig (w.tree r))) s (w.alloc (retrieveConfig (w.tree r))).1
  have hk : Keep w (addTree d junk (w.alloc (retrieveConfig (w.tree r))).2 s (w.alloc (retrieveConfig (w.tree r))).1).2 :=
    (keep_alloc _ _).trans (addTree_keep _ _ _)
  have hv := deltaOf_sum (d := d) (junk := junk) (r := r) w hw hs
  rcases deltaOf_cases (d := d) (junk := junk) w s r o sh with ⟨e, _, h'⟩ | ⟨c, hx, h'⟩ | ⟨y, _, _, h'⟩
  · rw [h']; exact h
  · rw [h']
    refine wf_newDelta h (Nat.lt_of_lt_of_le hs hk.configs.length_le) ?_
    cases hc : configAddElem d (w.config s) (retrieveConfig (w.tree r)) with
    | error e => rw [hc] at hv; cases hx.symm.trans (show _ = _ from hv)
    | ok t =>
      rw [hc] at hv
      obtain ⟨c', h1, h2, _⟩ := hv
      cases hx.symm.trans h1
      exact h2
  · rw [h']; exact h

theorem deltaOf_shows {w : World} (hw : w.Wf) {s : Nat} (hs : s < w.configs.length) (r : Nat) (o : Opts)
    (sh : Option (Nat × (Nat → List Nat))) :
    Shows (deltaOf d junk w s r o sh)
      ((newDeltaOf d (w.config s) (w.tree r) o).map fun δ => .delta { δ with shuffle := sh }) := by
  have hk : Keep w (addTree d junk (w.alloc (retrieveConfig (w.tree r))).2 s (w.alloc (retrieveConfig (w.tree r))).1).2 :=
    (keep_alloc _ _).trans (addTree_keep _ _ _)
  have hv := deltaOf_sum (d := d) (junk := junk) (r := r) w hw hs
  unfold newDeltaOf
  cases hc : configAddElem d (w.config s) (retrieveConfig (w.tree r)) with
  | error e =>
    rw [hc] at hv
    have hv' := (show _ = _ from hv)
    rcases deltaOf_cases (d := d) (junk := junk) w s r o sh with ⟨e', hx, h'⟩ | ⟨c, hx, h'⟩ | ⟨y, _, hx, h'⟩
    · rw [h']; rw [hv'] at hx; cases hx; rfl
    · rw [hv'] at hx; cases hx
    · rw [hv'] at hx; cases hx
  | ok t =>
    rw [hc] at hv
    obtain ⟨c', h1, h2, h3⟩ := hv
    rcases deltaOf_cases (d := d) (junk := junk) w s r o sh with ⟨e', hx, h'⟩ | ⟨c, hx, h'⟩ | ⟨y, hy, hx, h'⟩
    · rw [h1] at hx; cases hx
    · rw [h1] at hx; cases hx
      rw [h']
      refine ⟨_, rfl, by simp, ?_⟩
      dsimp only
      rw [deltaObj_last]
      show Delta.mk _ _ _ _ = Delta.mk _ _ _ _
      congr 1
      exact hk.config hw hs
    · rw [h1] at hx; cases hx; exact absurd rfl (hy c')

theorem filter_cases (w : World) (c : Nat) (f : Elem → Except Err Elem) :
    let x := fromElement d junk (w.deepcopy (w.ele c)).2 (w.deepcopy (w.ele c)).1 true false
    (∃ e, x.1 = .error e ∧ filter d junk w c f = (.error e, x.2)) ∨
    (∃ c', x.1 = .ok (.config c') ∧ filter d junk w c f = match f (x.2.config c') with
      | .error e => (.error e, x.2.write (x.2.ele c') (junk 0))
      | .ok t => (.ok (.config c'), x.2.write (x.2.ele c') t)) ∨
    (∃ y, (∀ c, y ≠ .config c) ∧ x.1 = .ok y ∧ filter d junk w c f = (.ok y, x.2)) := by
  intro x
  have : filter d junk w c f = match x.1 with
    | .ok (.config c') => (match f (x.2.config c') with
      | .error e => (.error e, x.2.write (x.2.ele c') (junk 0))
      | .ok t => (.ok (.config c'), x.2.write (x.2.ele c') t))
    | .ok r => (.ok r, x.2)
    | .error e => (.error e, x.2) := rfl
  rw [this]
  cases h : x.1 with
  | error e => exact .inl ⟨e, rfl, rfl⟩
  | ok y =>
    cases y with
    | config c => exact .inr (.inl ⟨c, rfl, rfl⟩)
    | delta k => exact .inr (.inr ⟨_, fun c hc => Result.noConfusion hc, rfl, rfl⟩)
    | bool k => exact .inr (.inr ⟨_, fun c hc => Result.noConfusion hc, rfl, rfl⟩)
    | tree k => exact .inr (.inr ⟨_, fun c hc => Result.noConfusion hc, rfl, rfl⟩)

/-- The object that `fromElement` gives has the new tree. -/
theorem fromElement_ele {w : World} {r : Nat} {v rd : Bool} {c : Nat} (h : (fromElement d junk w r v rd).1 = .ok (.config c)) :
    c = w.configs.length ∧ (fromElement d junk w r v rd).2.configs = w.configs ++ [w.trees.length] ∧
      (fromElement d junk w r v rd).2.ele c = w.trees.length := by
  unfold fromElement at h ⊢
  dsimp only at h ⊢
  rw [construct_eq] at h ⊢
  cases hb : built d ((w.alloc (retrieveConfig (w.tree r))).2.tree (w.alloc (retrieveConfig (w.tree r))).1) v rd with
  | error e => rw [hb] at h; cases h
  | ok t =>
    rw [hb] at h
    cases h
    exact ⟨rfl, rfl, by simp [World.ele, World.alloc]⟩

theorem filter_keep (w : World) (c : Nat) (f : Elem → Except Err Elem) : Keep w (filter d junk w c f).2 := by
  have hk : Keep w (w.deepcopy (w.ele c)).2 := keep_alloc _ _
  have h : Keep w (fromElement d junk (w.deepcopy (w.ele c)).2 (w.deepcopy (w.ele c)).1 true false).2 :=
    hk.trans (fromElement_keep _ _ _ _)
  rcases filter_cases (d := d) (junk := junk) w c f with ⟨e, _, h'⟩ | ⟨c', hx, h'⟩ | ⟨y, _, _, h'⟩
  · rw [h']; exact h
  · rw [h']
    have hl : w.trees.length ≤ (fromElement d junk (w.deepcopy (w.ele c)).2 (w.deepcopy (w.ele c)).1 true false).2.ele c' := by
      rw [(fromElement_ele hx).2.2]
      exact hk.len
    cases f _ with
    | error e => exact h.write hl _
    | ok t => exact h.write hl _
  · rw [h']; exact h

theorem filter_wf {w : World} (hw : w.Wf) (c : Nat) (f : Elem → Except Err Elem) : (filter d junk w c f).2.Wf := by
  have h : (fromElement d junk (w.deepcopy (w.ele c)).2 (w.deepcopy (w.ele c)).1 true false).2.Wf :=
    fromElement_wf (wf_alloc hw _) _ _ _
  rcases filter_cases (d := d) (junk := junk) w c f with ⟨e, _, h'⟩ | ⟨c', hx, h'⟩ | ⟨y, _, _, h'⟩
  · rw [h']; exact h
  · rw [h']; cases f _ <;> exact wf_write h _ _
  · rw [h']; exact h

theorem filter_shows {w : World} (hw : w.Wf) (c : Nat) (f : Elem → Except Err Elem) :
    Shows (filter d junk w c f) ((do
      let t ← newConfig d (w.config c)
      f t).map .config) := by
  have hwf : (fromElement d junk (w.deepcopy (w.ele c)).2 (w.deepcopy (w.ele c)).1 true false).2.Wf :=
    fromElement_wf (wf_alloc hw _) _ _ _
  have hv := fromElement_shows (d := d) (junk := junk) (w.deepcopy (w.ele c)).2 (w.deepcopy (w.ele c)).1 true false
  rw [show (w.deepcopy (w.ele c)).2.tree (w.deepcopy (w.ele c)).1 = w.config c from tree_alloc _ _] at hv
  cases hc : newConfig d (w.config c) true false with
  | error e =>
    rw [hc] at hv
    have hv' := (show _ = _ from hv)
    rcases filter_cases (d := d) (junk := junk) w c f with ⟨e', hx, h'⟩ | ⟨c, hx, h'⟩ | ⟨y, _, hx, h'⟩
    · rw [h']; rw [hv'] at hx; cases hx; rfl
    · rw [hv'] at hx; cases hx
    · rw [hv'] at hx; cases hx
  | ok t =>
    rw [hc] at hv
    obtain ⟨c', h1, h2, h3⟩ := hv
    rcases filter_cases (d := d) (junk := junk) w c f with ⟨e', hx, h'⟩ | ⟨c'', hx, h'⟩ | ⟨y, hy, hx, h'⟩
    · rw [h1] at hx; cases hx
    · rw [h1] at hx; cases hx
      rw [h', h3]
      show Shows _ (Except.map _ (f t))
      cases f t with
      | error e => rfl
      | ok t' => exact ⟨c', rfl, h2, tree_write (ele_lt hwf h2) t'⟩
    · rw [h1] at hx; cases hx; exact absurd rfl (hy c')

/-! ## Every call -/

theorem Keep.grows {w w' : World} (h : Keep w w') : Grows w w' := ⟨h.len, h.configs, h.deltas⟩

theorem Grows.trans {a b c : World} (h : Grows a b) (k : Grows b c) : Grows a c :=
  ⟨Nat.le_trans h.1 k.1, h.2.1.trans k.2.1, h.2.2.trans k.2.2⟩

/-- A call that is not one of the two kinds changes nothing. -/
theorem run_keep (w : World) (o : Op) (h1 : ∀ c v rd, o ≠ .fromConfig c v rd) (h2 : ∀ r e, o ≠ .change r e) :
    Keep w (o.run d junk w).2 := by
  cases o with
  | load e => exact keep_alloc _ _
  | fromNothing v => exact construct_keep (keep_alloc _ _) (by simp [World.alloc]) _ _
  | fromElement r v rd => exact fromElement_keep _ _ _ _
  | fromConfig c v rd => exact absurd rfl (h1 c v rd)
  | addTree c r => exact addTree_keep _ _ _
  | addConfig c c' => exact addConfig_keep _ _ _
  | newDelta s t o sh => exact newDelta_keep _ _ _ _ _
  | deltaOf s r o sh => exact deltaOf_keep _ _ _ _ _
  | readNc k => exact readNc_keep _ _
  | addDelta c k => exact addDelta_keep _ _ _
  | deltaAdd k c => exact deltaAdd_keep _ _ _
  | negate k => exact newDelta_keep _ _ _ _ _
  | subDelta c k => exact subDelta_keep _ _ _
  | compare f c c' => exact .refl _
  | filter c f => exact filter_keep _ _ _
  | change r e => exact absurd rfl (h2 r e)

theorem run_wf {w : World} (hw : w.Wf) (o : Op) (hv : o.Valid w) : (o.run d junk w).2.Wf := by
  cases o with
  | load e => exact wf_alloc hw _
  | fromNothing v => exact construct_wf (wf_alloc hw _) (alloc_lt _ _) _ _
  | fromElement r v rd => exact fromElement_wf hw _ _ _
  | fromConfig c v rd => exact construct_wf hw (ele_lt hw hv) _ _
  | addTree c r => exact addTree_wf hw _ _
  | addConfig c c' => exact addConfig_wf hw _ _
  | newDelta s t o sh => exact newDelta_wf hw hv.1 hv.2 _ _
  | deltaOf s r o sh => exact deltaOf_wf hw hv.1 _ _ _
  | readNc k => exact readNc_wf hw _
  | addDelta c k => exact addDelta_wf hw _ _
  | deltaAdd k c => exact deltaAdd_wf hw _ _
  | negate k => exact negate_wf hw hv
  | subDelta c k => exact subDelta_wf hw _ hv.2
  | compare f c c' => exact hw
  | filter c f => exact filter_wf hw _ _
  | change r e => exact wf_write hw _ _

theorem write_same (w : World) {r q : Nat} (h : r ≠ q) (e : Elem) : (w.write r e).trees[q]? = w.trees[q]? :=
  List.getElem?_set_ne h

theorem run_frame {w : World} (o : Op) (hv : o.Valid w) :
    Grows w (o.run d junk w).2 ∧
      ∀ r < w.trees.length, ¬ Touches w o r → (o.run d junk w).2.trees[r]? = w.trees[r]? := by
  by_cases h1 : ∃ c v rd, o = .fromConfig c v rd
  · obtain ⟨c, v, rd, rfl⟩ := h1
    show Grows w (construct d junk w (w.ele c) v rd).2 ∧ _
    have he : w.configs[c]? = some (w.ele c) := by
      unfold World.ele
      rw [List.getElem?_eq_getElem (show c < w.configs.length from hv)]
      rfl
    have key : ∀ r, ¬ Touches w (.fromConfig c v rd) r → w.ele c ≠ r := fun r hr hcr => hr (by rw [← hcr]; exact he)
    have hrun : Op.run d junk w (.fromConfig c v rd) = construct d junk w (w.ele c) v rd := rfl
    rw [hrun, construct_eq]
    cases built d (w.tree (w.ele c)) v rd with
    | error e =>
      exact ⟨⟨by simp [World.write], List.prefix_rfl, List.prefix_rfl⟩, fun r _ hr => write_same w (key r hr) _⟩
    | ok t =>
      exact ⟨⟨by simp [World.write], List.prefix_append _ _, List.prefix_rfl⟩, fun r _ hr => write_same w (key r hr) _⟩
  · by_cases h2 : ∃ r e, o = .change r e
    · obtain ⟨r, e, rfl⟩ := h2
      exact ⟨⟨by simp [Op.run, World.write], List.prefix_rfl, List.prefix_rfl⟩, fun q _ hq => write_same w (fun h => hq h) _⟩
    · have := run_keep (d := d) (junk := junk) w o (fun c v rd h => h1 ⟨c, v, rd, h⟩) (fun r e h => h2 ⟨r, e, h⟩)
      exact ⟨this.grows, fun r hr _ => this.same r hr⟩

theorem run_shows {w : World} (hw : w.Wf) (o : Op) (hv : o.Valid w) : Shows (o.run d junk w) (o.value d w) := by
  cases o with
  | load e => exact ⟨_, rfl, alloc_lt w e, tree_alloc w e⟩
  | fromNothing v =>
    have := construct_shows (d := d) (junk := junk) (alloc_lt w emptyConfig) v false
    rw [tree_alloc] at this
    exact this
  | fromElement r v rd => exact fromElement_shows _ _ _ _
  | fromConfig c v rd => exact construct_shows (ele_lt hw hv) v rd
  | addTree c r => exact addTree_shows _ _ _
  | addConfig c c' => exact addConfig_shows _ _ _
  | newDelta s t o sh => exact newDelta_shows _ _ _ _ _
  | deltaOf s r o sh => exact deltaOf_shows hw hv.1 _ _ _
  | readNc k =>
    show Shows ((Objects.readNc d junk w k).1.map .tree, (Objects.readNc d junk w k).2) (((w.delta (w.deltaObj k)).nc d).map .tree)
    unfold readNc
    cases hr : (w.delta (w.deltaObj k)).nc d with
    | error e => rfl
    | ok t =>
      obtain ⟨h1, h2, h3⟩ := calculate_ok (junk := junk) w (w.ele (w.deltaObj k).dst) (w.ele (w.deltaObj k).src) t
      exact ⟨w.trees.length, by rw [h1]; rfl, h2, h3⟩
  | addDelta c k => exact addDelta_shows hw hv.1
  | deltaAdd k c => exact deltaAdd_shows hw hv.1
  | negate k => exact newDelta_shows _ _ _ _ _
  | subDelta c k => exact subDelta_shows hw hv.1 hv.2
  | compare f c c' =>
    show Shows ((f (w.config c) (w.config c')).map .bool, w) ((f (w.config c) (w.config c')).map .bool)
    cases f (w.config c) (w.config c') <;> rfl
  | filter c f => exact filter_shows hw _ _
  | change r e => exact ⟨r, rfl, by simpa [Op.run, World.write] using (show r < w.trees.length from hv), tree_write hv e⟩

/-! ## New trees -/

/-- At most one `Config` object is new, and it has a new tree. -/
def Adds (w w' : World) : Prop :=
  w'.configs = w.configs ∨ ∃ r, w.trees.length ≤ r ∧ r < w'.trees.length ∧ w'.configs = w.configs ++ [r]

theorem Adds.after {a b c : World} (h : a.trees.length ≤ b.trees.length) (h' : b.configs = a.configs) (k : Adds b c) : Adds a c := by
  rcases k with k | ⟨r, h1, h2, h3⟩
  · exact .inl (k.trans h')
  · exact .inr ⟨r, Nat.le_trans h h1, h2, by rw [h3, h']⟩

theorem construct_adds {w w1 : World} (h : w1.configs = w.configs) {r : Nat} (hr : w.trees.length ≤ r) (hr' : r < w1.trees.length)
    (v rd : Bool) : Adds w (construct d junk w1 r v rd).2 := by
  rw [construct_eq]
  cases built d (w1.tree r) v rd with
  | error e => exact .inl h
  | ok t => exact .inr ⟨r, hr, by simpa [World.write] using hr', by rw [← h]⟩

theorem fromElement_adds (w : World) (r : Nat) (v rd : Bool) : Adds w (fromElement d junk w r v rd).2 :=
  construct_adds (w := w) (w1 := (w.alloc _).2) rfl (Nat.le_refl _) (alloc_lt _ _) v rd

theorem addTree_adds (w : World) (c r : Nat) : Adds w (addTree d junk w c r).2 := by
  have h := calculate_configs (junk := junk) w (w.ele c) r (calcAdd d (w.config c) (w.tree r))
  have hk := calculate_keep (junk := junk) w (w.ele c) r (calcAdd d (w.config c) (w.tree r))
  unfold addTree
  cases hx : (calculate junk w (w.ele c) r (calcAdd d (w.config c) (w.tree r))).1 with
  | error e => simpa only [hx] using (show Adds w _ from Or.inl h.1)
  | ok a => simpa only [hx] using (fromElement_adds _ _ _ _).after hk.len h.1

theorem deltaAdd_adds (w : World) (k c : Nat) : Adds w (deltaAdd d junk w k c).2 := by
  have h : (readNc d junk w k).2.configs = w.configs := (calculate_configs _ _ _ _).1
  have hk := readNc_keep (d := d) (junk := junk) w k
  unfold deltaAdd
  cases hx : (readNc d junk w k).1 with
  | error e => simpa only [hx] using (show Adds w _ from Or.inl h)
  | ok a => simpa only [hx] using (addTree_adds _ _ _).after hk.len h

theorem newDelta_configs (w : World) (s t : Nat) (o : Opts) (sh : Option (Nat × (Nat → List Nat))) :
    (newDelta d w s t o sh).2.configs = w.configs := by
  rcases newDelta_cases (d := d) w s t o sh with ⟨e, _, h⟩ | ⟨_, h⟩ <;> rw [h]

theorem addDelta_adds (w : World) (c k : Nat) : Adds w (addDelta d junk w c k).2 := by
  rw [addDelta_eq]
  cases compatible d [w.config c, w.config (w.deltaObj k).src, w.config (w.deltaObj k).dst] with
  | error e => exact .inl rfl
  | ok _ => exact deltaAdd_adds _ _ _

theorem run_adds (w : World) (o : Op) (h1 : ∀ c v rd, o ≠ .fromConfig c v rd) : Adds w (o.run d junk w).2 := by
  cases o with
  | load e => exact .inl rfl
  | fromNothing v => exact construct_adds (w := w) (w1 := (w.alloc _).2) rfl (Nat.le_refl _) (alloc_lt _ _) _ _
  | fromElement r v rd => exact fromElement_adds _ _ _ _
  | fromConfig c v rd => exact absurd rfl (h1 c v rd)
  | addTree c r => exact addTree_adds _ _ _
  | addConfig c c' =>
    show Adds w (addConfig d junk w c c').2
    unfold addConfig
    cases compatible d [w.config c, w.config c'] with
    | error e => exact .inl rfl
    | ok _ => exact addTree_adds _ _ _
  | newDelta s t o sh => exact .inl (newDelta_configs _ _ _ _ _)
  | deltaOf s r o sh =>
    have h : Adds w (addTree d junk (w.alloc (retrieveConfig (w.tree r))).2 s (w.alloc (retrieveConfig (w.tree r))).1).2 :=
      (addTree_adds _ _ _).after (keep_alloc _ _).len rfl
    show Adds w (deltaOf d junk w s r o sh).2
    rcases deltaOf_cases (d := d) (junk := junk) w s r o sh with ⟨e, _, h'⟩ | ⟨c, _, h'⟩ | ⟨y, _, _, h'⟩ <;> (rw [h']; exact h)
  | readNc k => exact .inl (calculate_configs _ _ _ _).1
  | addDelta c k => exact addDelta_adds _ _ _
  | deltaAdd k c => exact deltaAdd_adds _ _ _
  | negate k => exact .inl (newDelta_configs _ _ _ _ _)
  | subDelta c k =>
    have h : (negate d w k).2.configs = w.configs := newDelta_configs _ _ _ _ _
    have hk : Keep w (negate d w k).2 := newDelta_keep _ _ _ _ _
    show Adds w (subDelta d junk w c k).2
    unfold subDelta
    cases hx : (negate d w k).1 with
    | error e => simpa only [hx] using (show Adds w _ from Or.inl h)
    | ok r =>
      cases r with
      | delta k' => simpa only [hx] using (addDelta_adds _ _ _).after hk.len h
      | config _ => simpa only [hx] using (show Adds w _ from Or.inl h)
      | bool _ => simpa only [hx] using (show Adds w _ from Or.inl h)
      | tree _ => simpa only [hx] using (show Adds w _ from Or.inl h)
  | compare f c c' => exact .inl rfl
  | filter c f =>
    have h : Adds w (fromElement d junk (w.deepcopy (w.ele c)).2 (w.deepcopy (w.ele c)).1 true false).2 :=
      (fromElement_adds _ _ _ _).after (keep_alloc _ _).len rfl
    show Adds w (filter d junk w c f).2
    rcases filter_cases (d := d) (junk := junk) w c f with ⟨e, _, h'⟩ | ⟨c', hx, h'⟩ | ⟨y, _, _, h'⟩
    · rw [h']; exact h
    · rw [h']
      cases f _ with
      | error e =>
        rcases h with h | ⟨r, a, b, c⟩
        · exact .inl h
        · exact .inr ⟨r, a, by simpa [World.write] using b, c⟩
      | ok t =>
        rcases h with h | ⟨r, a, b, c⟩
        · exact .inl h
        · exact .inr ⟨r, a, by simpa [World.write] using b, c⟩
    · rw [h']; exact h
  | change r e => exact .inl rfl

end NcDiff.Objects
