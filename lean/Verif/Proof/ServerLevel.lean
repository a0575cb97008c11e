import Verif.Proof.ServerTag
/-!
# The server: one level of a difference
-/

namespace NcDiff.Compile

section
variable {d : Device} {rd : Bool}

theorem operation_eq (o : Elem) : operation o = opOf o := by
  unfold operation opOf
  cases o.get .operation with
  | none => rfl
  | some v => cases v <;> rfl

theorem insertOf_some {o : Elem} {i : String} (h : insertOf o = some i) (hi : i ≠ "?") : o.get .insert = some (.str i) := by
  unfold insertOf at h
  cases hg : o.get .insert with
  | none => rw [hg] at h; cases h
  | some v =>
    cases v with
    | str s => rw [hg] at h; cases h; rfl
    | pred ps => rw [hg] at h; cases h; exact absurd rfl hi

theorem insertOf_none {o : Elem} (h : insertOf o = none) : o.get .insert = none := by
  unfold insertOf at h
  cases hg : o.get .insert with
  | none => rfl
  | some v => cases v <;> rw [hg] at h <;> cases h

theorem identity_nil {p : Place} (h1 : p.2.info.keyword ≠ "leaf-list") (h2 : p.2.info.keyword ≠ "list") (x : Elem) :
    identity p x = [] := by
  unfold identity
  rw [if_neg h1, if_neg h2]

theorem single_of_once {p : Place} (h1 : p.2.info.keyword ≠ "leaf-list") (h2 : p.2.info.keyword ≠ "list") {l : List Elem}
    (hn : (l.map (identity p)).Nodup) {x : Elem} (hx : x ∈ l) : l = [x] := by
  cases l with
  | nil => cases hx
  | cons y r =>
    cases r with
    | nil => rw [List.mem_singleton.1 hx]
    | cons z r => simp [identity_nil h1 h2] at hn

theorem tagged_childrenWith (q : QName) (e : Elem) : tagged q e.kids = e.childrenWith q := rfl

theorem byUser_iff {p : Place} : byUser p = true ↔
    (p.2.info.keyword = "list" ∨ p.2.info.keyword = "leaf-list") ∧ p.2.info.Says "ordered-by" "user" := by
  unfold byUser
  rw [decide_eq_true_eq, said_says]

/-- Trees of leaves only. -/
theorem holds_flat {pl : List Place} {a m : List Elem}
    (h : ∀ p ∈ pl, DataKind p.2 → ∀ q, Named p.1 q p.2 → (tagged q a = [] ∧ tagged q m = []) ∨
      (p.2.info.keyword = "leaf" ∧ ∃ x y, tagged q a = [x] ∧ tagged q m = [y] ∧ valueOf p.2 x = valueOf p.2 y)) : Holds pl a m := by
  have id0 : ∀ {p : Place}, p.2.info.keyword = "leaf" → ∀ x, identity p x = [] := fun h =>
    identity_nil (by rw [h]; decide) (by rw [h]; decide)
  refine ⟨fun p hp hk q hq => ?_, fun p hp hk q hq x hx => ?_, fun p hp hk q hq y hy hno => ?_,
    fun p hp hk q hq y hy hno => ?_, fun p hp hk hu q hq => ?_, fun p hp hk q hq x hx y hy => ?_,
    fun p hp hk q hq x hx y hy hxy => ?_⟩
  · rcases h p hp hk q hq with ⟨h1, h2⟩ | ⟨_, x, y, h1, h2, _⟩ <;> simp [h1, h2]
  · rcases h p hp hk q hq with ⟨h1, h2⟩ | ⟨hl, x', y, h1, h2, _⟩
    · rw [h1] at hx; cases hx
    · exact ⟨y, by rw [h2]; simp, by rw [id0 hl, id0 hl]⟩
  · rcases h p hp hk q hq with ⟨h1, h2⟩ | ⟨hl, x', y', h1, h2, _⟩
    · rw [h2] at hy; cases hy
    · exact absurd (by rw [id0 hl, id0 hl]) (hno x' (by rw [h1]; simp))
  · rcases h p hp hk q hq with ⟨h1, h2⟩ | ⟨hl, x', y', h1, h2, _⟩
    · rw [h2] at hy; cases hy
    · exact absurd (by rw [id0 hl, id0 hl]) (hno x' (by rw [h1]; simp))
  · rcases h p hp (by rcases hk with hk | hk <;> simp [DataKind, hk]) q hq with ⟨h1, h2⟩ | ⟨hl, _⟩
    · rw [h1, h2]
    · rw [hl] at hk; exact absurd hk (by decide)
  · rcases h p hp (by simp [DataKind, hk]) q hq with ⟨h1, h2⟩ | ⟨hl, x', y', h1, h2, ht⟩
    · rw [h1] at hx; cases hx
    · rw [h1] at hx; rw [h2] at hy
      rw [List.mem_singleton.1 hx, List.mem_singleton.1 hy, ht]
  · rcases h p hp (by rcases hk with hk | hk <;> simp [DataKind, hk]) q hq with ⟨h1, h2⟩ | ⟨hl, _⟩
    · rw [h1] at hx; cases hx
    · rw [hl] at hk; exact absurd hk (by decide)

theorem holds_nil (pl : List Place) : Holds pl [] [] := holds_flat fun _ _ _ _ _ => Or.inl ⟨rfl, rfl⟩

/-- The keys that a new entry begins with. -/
def keysOf (p : Place) (o : Elem) : List Elem :=
  (o.kids.filter fun c => c.tag ∈ keyNames p).map fun c => .mk c.tag c.nsmap [] c.text []

theorem change_leaf {p : Place} {o : Elem} {inside : List Elem → Option (List Elem)} {l : List Elem}
    (hop : opOf o = "merge" ∨ opOf o = "replace" ∨ (opOf o = "create" ∧ l.find? (about p o) = none))
    (hk : p.2.info.keyword = "leaf" ∨ p.2.info.keyword = "leaf-list") :
    change p o inside l = put p o (.mk o.tag o.nsmap [] o.text []) l := by
  unfold change
  simp only [operation_eq]
  rw [if_neg (by rcases hop with h | h | ⟨h, _⟩ <;> rw [h] <;> decide),
    if_neg (by rcases hop with h | h | ⟨h, _⟩ <;> rw [h] <;> decide), if_pos hop, if_pos hk]

/-- What a node begins with. -/
def startOf (p : Place) (o : Elem) : Option Elem → List Elem
  | some y => if opOf o = "merge" then y.kids else if p.2.info.keyword = "list" then keysOf p o else []
  | none => if p.2.info.keyword = "list" then keysOf p o else []

theorem change_node {p : Place} {o : Elem} {inside : List Elem → Option (List Elem)} {l r : List Elem}
    (hop : opOf o = "merge" ∨ opOf o = "replace" ∨ (opOf o = "create" ∧ l.find? (about p o) = none))
    (hk : ¬ (p.2.info.keyword = "leaf" ∨ p.2.info.keyword = "leaf-list"))
    (hr : inside (startOf p o (l.find? (about p o))) = some r) :
    change p o inside l = put p o (.mk o.tag o.nsmap [] none r) l := by
  unfold change
  simp only [operation_eq]
  rw [if_neg (by rcases hop with h | h | ⟨h, _⟩ <;> rw [h] <;> decide),
    if_neg (by rcases hop with h | h | ⟨h, _⟩ <;> rw [h] <;> decide), if_pos hop, if_neg hk]
  cases hf : l.find? (about p o) with
  | none =>
    rw [hf] at hr
    simp only [startOf, keysOf] at hr
    simp only [hr]
  | some y =>
    rw [hf] at hr
    simp only [startOf, keysOf] at hr
    simp only [hr]

theorem change_delete {p : Place} {o : Elem} {inside : List Elem → Option (List Elem)} {l : List Elem}
    (hop : opOf o = "delete" ∨ opOf o = "remove") (hl : (l.find? (about p o)).isSome) :
    change p o inside l = some (l.filter fun y => !about p o y) := by
  unfold change
  simp only [operation_eq]
  rcases hop with h | h
  · rw [if_pos h, if_pos hl]
  · rw [if_neg (by rw [h]; decide), if_pos h]

namespace PlaceFact
variable {sc : Scope} {p : Place} {q : QName} {f : Found}

theorem np_iff (h : PlaceFact d rd sc p q f) : f.node.isNP = true ↔
    p.2.info.keyword = "container" ∧ ∀ v, ¬ p.2.info.Says "presence" v := by
  obtain ⟨a, hu⟩ := h.understood
  unfold SNode.isNP
  rw [Bool.and_eq_true, decide_eq_true_eq, hu.container, Bool.not_eq_true', ← Bool.not_eq_true, hu.presence]
  constructor
  · rintro ⟨h1, h2⟩
    exact ⟨h1, fun v hv => h2 ⟨h1, v, hv⟩⟩
  · rintro ⟨h1, h2⟩
    exact ⟨h1, fun ⟨_, v, hv⟩ => h2 v hv⟩

theorem mem_keyNames (h : PlaceFact d rd sc p q f) (hl : p.2.info.keyword = "list") {k : QName} :
    k ∈ keyNames p ↔ k ∈ f.node.keys := by
  rw [h.names hl, Compile.mem_keyNames]

theorem ntype_list (h : PlaceFact d rd sc p q f) (hl : p.2.info.keyword = "list") : f.node.ntype = .list := by
  obtain ⟨a, hu⟩ := h.understood
  exact hu.list.2 hl

/-- The keys of an entry are there once. -/
theorem key_once (h : PlaceFact d rd sc p q f) (hl : p.2.info.keyword = "list") {k : Elem} (hk : KidOk d f.node k)
    {t : QName} (ht : t ∈ f.node.keys) : ∃ c, tagged t k.kids = [c] := by
  unfold KidOk at hk
  simp only [h.ntype_list hl] at hk
  exact hk.2.2.1 t ht

/-- What holds the content of an entry has its keys. -/
theorem holds_identity (h : PlaceFact d rd sc p q f) (hl : p.2.info.keyword = "list") {k : Elem} (hk : KidOk d f.node k)
    {r : List Elem} (hr : Holds (places p.1 p.2.kids) k.kids r) {t : QName} {n : NsMap} {x : Option String} :
    Compile.identity p (.mk t n [] x r) = Compile.identity p k := by
  rw [identity_eq]
  refine ⟨fun h => by rw [hl] at h; exact absurd h (by decide), fun _ => sameEntry_iff.2 fun t ht => ?_⟩
  have ht' := (h.mem_keyNames hl).1 ht
  obtain ⟨c, hc⟩ := h.key_once hl hk ht'
  obtain ⟨p', hp', hn, hleaf, hplain⟩ := h.keyPlace hl t ht'
  cases hr with
  | mk once has more empty order value sub =>
    have hcm : c ∈ tagged t k.kids := by rw [hc]; simp
    obtain ⟨y, hy, _⟩ := has p' hp' (by simp [hleaf]) t hn c hcm
    have := single_of_once (by rw [hleaf]; decide) (by rw [hleaf]; decide) (once p' hp' (by simp [hleaf]) t hn).2 hy
    have hval := value p' hp' hleaf t hn c hcm y hy
    rw [valueOf_plain hplain, valueOf_plain hplain, Value.text.injEq] at hval
    rw [Elem.kids_mk, this, hc, List.map_cons, List.map_cons, hval]

theorem anchored_iff (h : PlaceFact d rd sc p q f) (hu : byUser p = true) {o x : Elem} (ho : o.tag = q)
    (hx : CellOk d sc x) (hxt : x.tag = q) (ha : Anchors f.node o x) {y : Elem} (hy : y.tag = q) :
    anchored p o y = true ↔ Compile.identity p y = Compile.identity p x := by
  obtain ⟨a, hun⟩ := h.understood
  obtain ⟨hk, ho'⟩ := byUser_iff.1 hu
  obtain ⟨g, hg, hgk, hgy⟩ := hx
  rw [hxt, h.lookup] at hg
  cases hg
  have hkeyed := hgy (hun.userOrdered.2 ⟨hk, ho'⟩)
  unfold anchored
  rw [Bool.and_eq_true, decide_eq_true_eq, ho, identity_eq]
  unfold Anchors at ha
  rcases hk with hk | hk
  · have hn : f.node.ntype = .list := hun.list.2 hk
    rw [if_neg (by rw [hk]; decide)]
    simp only [hn] at ha
    obtain ⟨ps, hps, hpp⟩ := ha
    rw [hps]
    simp only [decide_eq_true_eq]
    have hall : ∀ {ps : List (KeyId × String)} {l : List (QName × String)}, parsePreds o.nsmap ps = .ok l →
        List.Forall₂ (fun a b => readName o.nsmap a.1 = some b.1 ∧ a.2 = b.2) ps l := by
      intro ps
      induction ps with
      | nil => intro l hl; rw [parsePreds] at hl; cases hl; exact .nil
      | cons a r ih =>
        intro l hl
        obtain ⟨a1, a2⟩ := a
        rw [parsePreds] at hl
        split at hl
        · cases hl
        · obtain ⟨t, ht, hl⟩ := bind_ok.1 hl
          obtain ⟨r', hr', hl⟩ := bind_ok.1 hl
          cases hl
          refine .cons ⟨?_, rfl⟩ (ih hr')
          cases a1 with
          | brace q => cases ht; rfl
          | bare n => cases ht; rfl
          | prefixed a n =>
            simp only [readName]
            simp only [resolveKeyId] at ht
            cases hm : o.nsmap.url (some a) with
            | none => rw [hm] at ht; cases ht
            | some u => rw [hm] at ht; cases ht; rfl
    have hF := hall hpp
    have right : ∀ t ∈ keyNames p, ∃ z ∈ ps, readName o.nsmap z.1 = some t ∧ z.2 = keyText x t := by
      intro t ht
      obtain ⟨z, hz, h1, h2⟩ := forall₂_mem_right hF
        (List.mem_map.2 ⟨t, (h.mem_keyNames hk).1 ht, rfl⟩)
      exact ⟨z, hz, h1, h2⟩
    have left : ∀ z ∈ ps, ∃ t ∈ keyNames p, readName o.nsmap z.1 = some t ∧ z.2 = keyText x t := by
      intro z hz
      obtain ⟨b, hb, h1, h2⟩ := forall₂_mem_left hF hz
      obtain ⟨t, ht, rfl⟩ := List.mem_map.1 hb
      exact ⟨t, (h.mem_keyNames hk).2 ht, h1, h2⟩
    have keyx : ∀ t ∈ keyNames p, (tagged t x.kids).map Elem.text = [some (keyText x t)] := fun t ht =>
      (keyed_keyText hn hkeyed ((h.mem_keyNames hk).1 ht)).1
    rw [sameEntry_iff]
    constructor
    · rintro ⟨_, h1, _⟩
      refine ⟨fun h => by rw [hk] at h; exact absurd h (by decide), fun _ t ht => ?_⟩
      obtain ⟨z, hz, hz1, hz2⟩ := right t ht
      obtain ⟨t', ht', hz3, hz4⟩ := h1 z hz
      rw [hz1] at hz3
      cases hz3
      rw [hz4, hz2, keyx t ht]
    · rintro ⟨_, h1⟩
      refine ⟨hy, fun z hz => ?_, fun t ht => ?_⟩
      · obtain ⟨t, ht, h2, h3⟩ := left z hz
        exact ⟨t, ht, h2, by rw [h1 hk t ht, keyx t ht, h3]⟩
      · obtain ⟨z, hz, h2, _⟩ := right t ht
        exact ⟨z, hz, h2⟩
  · have hn : f.node.ntype = .leafList := hun.leafList.2 hk
    rw [if_pos hk]
    simp only [hn] at ha
    obtain ⟨v, hv, hxv⟩ := ha
    rw [hv]
    simp only [decide_eq_true_eq]
    rw [hxv]
    exact ⟨fun h => ⟨fun _ => h.2, fun h' => by rw [hk] at h'; exact absurd h' (by decide)⟩, fun h => ⟨hy, h.1 hk⟩⟩

end PlaceFact

/-! ## One level -/

/-- The content of `y` is that of `k`. -/
def Inner (p : Place) (k y : Elem) : Prop :=
  (p.2.info.keyword = "leaf" → valueOf p.2 k = valueOf p.2 y) ∧
  (p.2.info.keyword = "container" ∨ p.2.info.keyword = "list" → Holds (places p.1 p.2.kids) k.kids y.kids)

/-- `y` may be there if `T` are the instances that should be there. -/
def Fine (p : Place) (T : List Elem) (y : Elem) : Prop :=
  (∀ k ∈ T, identity p k = identity p y → Inner p k y) ∧
  ((∀ k ∈ T, identity p k ≠ identity p y) → p.2.info.keyword = "container" ∧ (∀ v, ¬ p.2.info.Says "presence" v) ∧
    Holds (places p.1 p.2.kids) [] y.kids)

/-- What is known about the levels below. -/
structure Below (d : Device) (sc : Scope) (pl : List Place) (S T D : Elem) : Prop where
  gone : ∀ s ∈ S.kids, (∀ k ∈ T.kids, uid d sc k ≠ uid d sc s) → ∀ o ∈ D.kids, uid d sc o = uid d sc s → opOf o = "merge" →
    ∀ p ∈ pl, Named p.1 s.tag p.2 → p.2.info.keyword = "container" → ∀ y, Holds (places p.1 p.2.kids) s.kids y →
    ∃ r, serve (places p.1 p.2.kids) o.kids y = some r ∧ Holds (places p.1 p.2.kids) [] r
  fresh : ∀ k ∈ T.kids, ∀ o ∈ D.kids, uid d sc o = uid d sc k → ((∀ s ∈ S.kids, uid d sc s ≠ uid d sc k) ∨ opOf o ≠ "merge") →
    ∀ p ∈ pl, Named p.1 k.tag p.2 → p.2.info.keyword = "container" → ∀ y, Holds (places p.1 p.2.kids) [] y →
    ∃ r, serve (places p.1 p.2.kids) o.kids y = some r ∧ Holds (places p.1 p.2.kids) k.kids r
  entry : ∀ k ∈ T.kids, ∀ o ∈ D.kids, uid d sc o = uid d sc k → ((∀ s ∈ S.kids, uid d sc s ≠ uid d sc k) ∨ opOf o ≠ "merge") →
    ∀ p ∈ pl, Named p.1 k.tag p.2 → p.2.info.keyword = "list" →
    ∃ r, serve (places p.1 p.2.kids) o.kids (keysOf p o) = some r ∧ Holds (places p.1 p.2.kids) k.kids r
  both : ∀ s ∈ S.kids, ∀ k ∈ T.kids, ∀ o ∈ D.kids, uid d sc s = uid d sc k → uid d sc o = uid d sc k → opOf o = "merge" →
    ∀ p ∈ pl, Named p.1 k.tag p.2 → p.2.info.keyword = "container" ∨ p.2.info.keyword = "list" → ∀ y,
    Holds (places p.1 p.2.kids) s.kids y →
    ∃ r, serve (places p.1 p.2.kids) o.kids y = some r ∧ Holds (places p.1 p.2.kids) k.kids r

theorem uids_tagged (sc : Scope) (q : QName) (l : List Elem) :
    (l.map (uid d sc)).filter (fun u => u.1 = q) = (tagged q l).map (uid d sc) := by
  rw [List.filter_map]
  refine congrArg (List.map _) (List.filter_congr fun x _ => ?_)
  simp only [Function.comp, uid_tag]

set_option maxHeartbeats 400000 in
theorem level_tag {ω : Prop} {sc : Scope} {pl : List Place} {S T D : Elem} {m : List Elem} (h : DiffBase ω d sc S T D)
    (hF : Field d rd sc pl) (fS : Fits d pl S) (fT : Fits d pl T) (hB : Below d sc pl S T D) (hm : Holds pl S.kids m)
    {p : Place} (hp : p ∈ pl) {q : QName} (hq : Named p.1 q p.2) (hk : DataKind p.2) :
    TagRun pl p q (Fine p (tagged q T.kids)) (tagged q D.kids) (tagged q T.kids) (tagged q m) := by
  obtain ⟨f, hf⟩ := hF.fact hp hq hk
  obtain ⟨a, hu⟩ := hf.understood
  have hplace := placeOf_eq hF.one hp hq hk
  have kidOf : ∀ {E : Elem}, Valid d sc E → ∀ x ∈ E.kids, x.tag = q → KidOk d f.node x := by
    intro E hv x hx hxt
    obtain ⟨g, hg, kg⟩ := hv.shape' x hx
    rw [hxt, hf.lookup] at hg
    cases hg; exact kg
  have same : ∀ {x y : Elem}, KidOk d f.node x → KidOk d f.node y → x.tag = q → y.tag = q →
      (uid d sc x = uid d sc y ↔ identity p x = identity p y) := by
    intro x y kx ky hx hy
    rw [uid_eq_iff (by rw [hx]; exact hf.lookup) kx ky (hx.trans hy.symm), hf.identity hx hy]
  obtain ⟨φ, hφ⟩ : ∃ φ : UID → Ident, ∀ x, x.tag = q → KidOk d f.node x → φ (uid d sc x) = identity p x := by
    classical
    refine ⟨fun u => if h : ∃ x, x.tag = q ∧ KidOk d f.node x ∧ uid d sc x = u then identity p h.choose else [],
      fun x hx hkx => ?_⟩
    have h : ∃ y, y.tag = q ∧ KidOk d f.node y ∧ uid d sc y = uid d sc x := ⟨x, hx, hkx, rfl⟩
    simp only [dif_pos h]
    exact (same h.choose_spec.2.1 hkx h.choose_spec.1 hx).1 h.choose_spec.2.2
  have ids : ∀ {E : Elem}, Valid d sc E → (tagged q E.kids).map (identity p) = ((tagged q E.kids).map (uid d sc)).map φ := by
    intro E hv
    rw [List.map_map]
    refine List.map_congr_left fun x hx => ?_
    obtain ⟨x1, x2⟩ := mem_tagged.1 hx
    exact (hφ x x2 (kidOf hv x x1 x2)).symm
  have hm' := hm
  cases hm' with
  | mk once has more empty order value sub =>
  have once := once p hp hk q hq
  have has := has p hp hk q hq
  have more := more p hp hk q hq
  have empty := empty p hp hk q hq
  -- what is not in the source
  have notS : ∀ {k y : Elem}, k ∈ T.kids → k.tag = q → (∀ s ∈ S.kids, uid d sc s ≠ uid d sc k) → identity p y = identity p k →
      ∀ s ∈ tagged q S.kids, identity p s ≠ identity p y := by
    intro k y hk1 hkt hno hy s hs hsy
    obtain ⟨s1, s2⟩ := mem_tagged.1 hs
    exact hno s s1 ((same (kidOf h.vS s s1 s2) (kidOf h.vT k hk1 hkt) s2 hkt).2 (hsy.trans hy))
  have find_spec : ∀ {o y : Elem}, o.tag = q → (tagged q m).find? (about p o) = some y →
      y ∈ tagged q m ∧ identity p y = identity p o := by
    intro o y ho hy
    have h1 := List.mem_of_find?_eq_some hy
    exact ⟨h1, (about_iff ho (mem_tagged.1 h1).2).1 (List.find?_some hy)⟩
  have find_of : ∀ {o y : Elem}, o.tag = q → y ∈ tagged q m → identity p y = identity p o →
      (tagged q m).find? (about p o) = some y := by
    intro o y ho hy hyo
    cases hfd : (tagged q m).find? (about p o) with
    | none => exact absurd ((about_iff ho (mem_tagged.1 hy).2).2 hyo) (by simpa using List.find?_eq_none.1 hfd y hy)
    | some z =>
      obtain ⟨z1, z2⟩ := find_spec ho hfd
      rw [List.inj_on_of_nodup_map once.2 z1 hy (z2.trans hyo.symm)]
  -- the order
  have hord : byUser p = true → f.node.userOrdered = true ∧ (f.node.ntype = .leafList ∨ f.node.ntype = .list) := by
    intro hbu
    obtain ⟨h1, h2⟩ := byUser_iff.1 hbu
    exact ⟨hu.userOrdered.2 ⟨h1, h2⟩, h1.symm.imp hu.leafList.2 hu.list.2⟩
  have hSm : byUser p = true → (tagged q S.kids).map (identity p) = (tagged q m).map (identity p) := by
    intro hbu
    obtain ⟨h1, h2⟩ := byUser_iff.1 hbu
    exact order p hp h1 h2 q hq
  have hST : byUser p = true → (S.kids.map (uid d sc)).filter (fun u => u.1 = q) = (T.kids.map (uid d sc)).filter (fun u => u.1 = q) →
      (tagged q m).map (identity p) = (tagged q T.kids).map (identity p) := by
    intro hbu he
    rw [uids_tagged, uids_tagged] at he
    rw [← hSm hbu, ids h.vS, ids h.vT, he]
  refine ⟨fun o ho => (mem_tagged.1 ho).2, fun y hy => (mem_tagged.1 hy).2, identity_nodup hf h.vD, identity_nodup hf h.vT,
    once.2, fun o ho => ?_, fun hbu => ?_, fun hbu => ?_, fun y hy hno => ?_, fun hbu y hy hno => ?_, fun u hu' hno => ?_⟩
  · -- the step
    obtain ⟨ho1, ho2⟩ := mem_tagged.1 ho
    have kO := kidOf h.vD o ho1 ho2
    have serveEq : ∀ l, serveOne pl o l = change p o (fun l' => serve (places p.1 p.2.kids) o.kids l') l :=
      fun l => serveOne_eq (by rw [ho2]; exact hplace)
    by_cases hT : ∃ k ∈ T.kids, uid d sc k = uid d sc o
    · right
      obtain ⟨k, hk1, hko⟩ := hT
      have hkt : k.tag = q := (tag_of_uid hko).trans ho2
      have kK := kidOf h.vT k hk1 hkt
      have hid : identity p k = identity p o := (same kK kO hkt ho2).1 hko
      have hkq : k ∈ tagged q T.kids := mem_tagged.2 ⟨hk1, hkt⟩
      have hlk : d.lookup sc k.tag = .ok f := by rw [hkt]; exact hf.lookup
      have hnk : Named p.1 k.tag p.2 := by rw [hkt]; exact hq
      -- the position
      have hpos : byUser p = true → identity p o ∈ (tagged q T.kids).map (identity p) ∧
          ((o.get .insert = some (.str "first") ∧ ∃ r, (tagged q T.kids).map (identity p) = identity p o :: r) ∨
          (o.get .insert = some (.str "after") ∧ ∃ v, (∀ y, y.tag = q → (anchored p o y = true ↔ identity p y = v)) ∧
            ∃ a b, (tagged q T.kids).map (identity p) = a ++ v :: identity p o :: b) ∨
          (o.get .insert = none ∧ (tagged q m = [] ∨ (tagged q m).map (identity p) = (tagged q T.kids).map (identity p)))) := by
        intro hbu
        refine ⟨by rw [← hid]; exact List.mem_map_of_mem hkq, ?_⟩
        obtain ⟨h1, h2⟩ := hord hbu
        rcases h.pos o ho1 k hk1 hko.symm f hlk h1 h2 with ⟨hi, r, hr⟩ | ⟨hi, x, hx, ha, l, r, hlr⟩ | ⟨hi, hn⟩
        · left
          refine ⟨insertOf_some hi (by decide), r.map φ, ?_⟩
          rw [hkt, uids_tagged] at hr
          rw [ids h.vT, hr, List.map_cons, hφ k hkt kK, hid]
        · right; left
          rw [hkt, uids_tagged] at hlr
          have hxt : x.tag = q := by
            have : uid d sc x ∈ (tagged q T.kids).map (uid d sc) := by rw [hlr]; simp
            obtain ⟨z, hz, hzx⟩ := List.mem_map.1 this
            rw [← tag_of_uid hzx]; exact (mem_tagged.1 hz).2
          refine ⟨insertOf_some hi (by decide), identity p x, fun y hy => hf.anchored_iff hbu ho2 (h.cellT x hx) hxt ha hy,
            l.map φ, r.map φ, ?_⟩
          rw [ids h.vT, hlr, List.map_append, List.map_cons, List.map_cons, hφ k hkt kK, hid, hφ x hxt (kidOf h.vT x hx hxt)]
        · right; right
          refine ⟨insertOf_none hi, ?_⟩
          rcases hn with hn | hn
          · left
            have h0 : tagged q S.kids = [] := by
              rw [List.eq_nil_iff_forall_not_mem]
              intro s hs
              exact hn s (mem_tagged.1 hs).1 ((mem_tagged.1 hs).2.trans hkt.symm)
            have := hSm hbu
            rw [h0, List.map_nil, eq_comm, List.map_eq_nil_iff] at this
            exact this
          · right
            rw [hkt] at hn
            exact hST hbu hn
      suffices hs : ∃ e, e.tag = q ∧ identity p e = identity p o ∧ Inner p k e ∧
          ∀ l, l.find? (about p o) = (tagged q m).find? (about p o) → serveOne pl o l = put p o e l by
        obtain ⟨e, e1, e2, e3, e4⟩ := hs
        refine ⟨e, e1, e2, ⟨fun k' hk' hke => ?_, fun hno => absurd (hid.trans e2.symm) (hno k hkq)⟩, e4, hpos⟩
        rw [List.inj_on_of_nodup_map (identity_nodup hf h.vT) hk' hkq (hke.trans (e2.trans hid.symm))]
        exact e3
      -- the operation
      have hop : opOf o = "merge" ∨ opOf o = "replace" ∨ (opOf o = "create" ∧ (tagged q m).find? (about p o) = none) := by
        by_cases hS : ∃ s ∈ S.kids, uid d sc s = uid d sc k
        · obtain ⟨s, hs, hsk⟩ := hS
          obtain ⟨b1, b2, b3⟩ := h.bothOp s hs k hk1 o ho1 hsk hko.symm f hlk
          have : opOf o = "merge" ∨ opOf o = "replace" := by
            simp only [DataKind, List.mem_cons, List.not_mem_nil, or_false] at hk
            rcases hk with hk | hk | hk | hk
            · exact (b3 (Or.inl (hu.container.2 hk))).imp And.left And.left
            · exact (b1 (hu.leaf.2 hk)).1
            · exact b2 (hu.leafList.2 hk)
            · exact (b3 (Or.inr (hu.list.2 hk))).imp And.left And.left
          exact this.imp_right Or.inl
        · have hno : ∀ s ∈ S.kids, uid d sc s ≠ uid d sc k := fun s hs he => hS ⟨s, hs, he⟩
          obtain ⟨n1, _, _, n4⟩ := h.newOp k hk1 hno o ho1 hko.symm f hlk
          refine n1.imp_right (Or.imp_right fun hc => ⟨hc, ?_⟩)
          cases hfd : (tagged q m).find? (about p o) with
          | none => rfl
          | some y =>
            obtain ⟨y1, y2⟩ := find_spec ho2 hfd
            have := hf.np_iff.2 (more y y1 (notS hk1 hkt hno (y2.trans hid.symm)))
            rw [n4 hc] at this
            cases this
      by_cases hleaf : p.2.info.keyword = "leaf" ∨ p.2.info.keyword = "leaf-list"
      · have htext : k.nsmap = o.nsmap ∧ k.text = o.text := by
          by_cases hS : ∃ s ∈ S.kids, uid d sc s = uid d sc k
          · obtain ⟨s, hs, hsk⟩ := hS
            obtain ⟨t1, t2⟩ := h.texts s hs k hk1 o ho1 hsk hko.symm
            exact ⟨t1.symm, t2.symm⟩
          · have hno : ∀ s ∈ S.kids, uid d sc s ≠ uid d sc k := fun s hs he => hS ⟨s, hs, he⟩
            obtain ⟨_, n2, _⟩ := h.newOp k hk1 hno o ho1 hko.symm f hlk
            rw [← n2 (Or.inr (hleaf.imp hu.leaf.2 hu.leafList.2)), delAttrib_text, delAttrib_nsmap]
            exact ⟨rfl, rfl⟩
        refine ⟨.mk o.tag o.nsmap [] o.text [], ho2, ?_, ⟨fun _ => valueOf_congr htext.1 htext.2, fun h' => ?_⟩, fun l hl => ?_⟩
        · rw [identity_eq]
          refine ⟨fun _ => rfl, fun h' => ?_⟩
          rcases hleaf with hl | hl <;> rw [hl] at h' <;> exact absurd h' (by decide)
        · rcases hleaf with hl | hl <;> rw [hl] at h' <;> exact absurd h' (by decide)
        · rw [serveEq]
          exact change_leaf (by rw [hl]; exact hop) hleaf
      · have hkind : p.2.info.keyword = "container" ∨ p.2.info.keyword = "list" := by
          simp only [DataKind, List.mem_cons, List.not_mem_nil, or_false] at hk
          rcases hk with hk | hk | hk | hk
          · exact Or.inl hk
          · exact absurd (Or.inl hk) hleaf
          · exact absurd (Or.inr hk) hleaf
          · exact Or.inr hk
        suffices hs : ∃ r, serve (places p.1 p.2.kids) o.kids (startOf p o ((tagged q m).find? (about p o))) = some r ∧
            Holds (places p.1 p.2.kids) k.kids r by
          obtain ⟨r, hr1, hr2⟩ := hs
          refine ⟨.mk o.tag o.nsmap [] none r, ho2, ?_, ⟨fun h' => absurd (Or.inl h') hleaf, fun _ => hr2⟩, fun l hl => ?_⟩
          · rcases hkind with hc | hc
            · rw [identity_nil (by rw [hc]; decide) (by rw [hc]; decide), identity_nil (by rw [hc]; decide) (by rw [hc]; decide)]
            · rw [hf.holds_identity hc kK hr2, hid]
          · rw [serveEq]
            exact change_node (by rw [hl]; exact hop) hleaf (by rw [hl]; exact hr1)
        by_cases hmg : opOf o = "merge"
        · by_cases hS : ∃ s ∈ S.kids, uid d sc s = uid d sc k
          · obtain ⟨s, hs, hsk⟩ := hS
            have hst : s.tag = q := (tag_of_uid hsk).trans hkt
            have hsid : identity p s = identity p k := (same (kidOf h.vS s hs hst) kK hst hkt).1 hsk
            obtain ⟨y, hy, hsy⟩ := has s (mem_tagged.2 ⟨hs, hst⟩)
            rw [find_of ho2 hy (hsy.symm.trans (hsid.trans hid)), startOf, if_pos hmg]
            exact hB.both s hs k hk1 o ho1 hsk hko.symm hmg p hp hnk hkind y.kids
              (sub p hp hkind q hq s (mem_tagged.2 ⟨hs, hst⟩) y hy hsy)
          · have hno : ∀ s ∈ S.kids, uid d sc s ≠ uid d sc k := fun s hs he => hS ⟨s, hs, he⟩
            cases hfd : (tagged q m).find? (about p o) with
            | some y =>
              obtain ⟨y1, y2⟩ := find_spec ho2 hfd
              have hns := notS hk1 hkt hno (y2.trans hid.symm)
              rw [startOf, if_pos hmg]
              exact hB.fresh k hk1 o ho1 hko.symm (Or.inl hno) p hp hnk (more y y1 hns).1 y.kids (empty y y1 hns)
            | none =>
              rw [startOf]
              rcases hkind with hc | hc
              · rw [if_neg (by rw [hc]; decide)]
                exact hB.fresh k hk1 o ho1 hko.symm (Or.inl hno) p hp hnk hc [] (holds_nil _)
              · rw [if_pos hc]
                exact hB.entry k hk1 o ho1 hko.symm (Or.inl hno) p hp hnk hc
        · have hst : startOf p o ((tagged q m).find? (about p o)) = if p.2.info.keyword = "list" then keysOf p o else [] := by
            cases (tagged q m).find? (about p o) with
            | none => rfl
            | some y => rw [startOf, if_neg hmg]
          rw [hst]
          rcases hkind with hc | hc
          · rw [if_neg (by rw [hc]; decide)]
            exact hB.fresh k hk1 o ho1 hko.symm (Or.inr hmg) p hp hnk hc [] (holds_nil _)
          · rw [if_pos hc]
            exact hB.entry k hk1 o ho1 hko.symm (Or.inr hmg) p hp hnk hc
    · -- something goes
      have hS : ∃ s ∈ S.kids, uid d sc s = uid d sc o := (h.only o ho1).resolve_left hT
      obtain ⟨s, hs, hso⟩ := hS
      have hst : s.tag = q := (tag_of_uid hso).trans ho2
      have hno : ∀ k ∈ T.kids, uid d sc k ≠ uid d sc s := fun k hk' he => hT ⟨k, hk', he.trans hso⟩
      have hsid : identity p s = identity p o := (same (kidOf h.vS s hs hst) kO hst ho2).1 hso
      have hsq : s ∈ tagged q S.kids := mem_tagged.2 ⟨hs, hst⟩
      obtain ⟨y, hy, hsy⟩ := has s hsq
      have hnT : ∀ k ∈ tagged q T.kids, identity p k ≠ identity p o := by
        intro k hk' he
        obtain ⟨k1, k2⟩ := mem_tagged.1 hk'
        exact hT ⟨k, k1, (same (kidOf h.vT k k1 k2) kO k2 ho2).2 he⟩
      rcases h.goneOp s hs hno o ho1 hso.symm f (by rw [hst]; exact hf.lookup) with ⟨hop, _⟩ | ⟨hop, hnp⟩
      · left
        refine ⟨fun hmem => ?_, List.mem_map.2 ⟨y, hy, hsy.symm.trans hsid⟩, fun l hl => ?_⟩
        · obtain ⟨k, hk', he⟩ := List.mem_map.1 hmem
          exact hnT k hk' he
        · rw [serveEq]
          exact change_delete hop hl
      · right
        obtain ⟨hc, hnp⟩ := hf.np_iff.1 hnp
        obtain ⟨r, hr1, hr2⟩ := hB.gone s hs hno o ho1 hso.symm hop p hp (by rw [hst]; exact hq) hc y.kids
          (sub p hp (Or.inl hc) q hq s hsq y hy hsy)
        have id0 : ∀ x, identity p x = [] := identity_nil (by rw [hc]; decide) (by rw [hc]; decide)
        refine ⟨.mk o.tag o.nsmap [] none r, ho2, by rw [id0, id0], ⟨fun k hk' he => ?_, fun _ => ⟨hc, hnp, hr2⟩⟩, fun l hl => ?_, fun hbu => ?_⟩
        · exact absurd (by rw [id0, id0]) (hnT k hk')
        · rw [serveEq]
          refine change_node (Or.inl hop) (by rw [hc]; intro hh; rcases hh with hh | hh <;> exact absurd hh (by decide)) ?_
          rw [hl, find_of ho2 hy (hsy.symm.trans hsid), startOf, if_pos hop]
          exact hr1
        · have := (byUser_iff.1 hbu).1
          rw [hc] at this
          exact absurd this (by decide)
  · obtain ⟨h1, h2⟩ := hord hbu
    rcases h.full q ⟨f, hf.lookup, h1, h2⟩ with hfl | hfl
    · left
      intro u hu'
      obtain ⟨k, hk', rfl⟩ := List.mem_map.1 hu'
      obtain ⟨k1, k2⟩ := mem_tagged.1 hk'
      obtain ⟨o, ho, hok⟩ := hfl k k1 k2
      have hot : o.tag = q := (tag_of_uid hok).trans k2
      exact List.mem_map.2 ⟨o, mem_tagged.2 ⟨ho, hot⟩, (same (kidOf h.vD o ho hot) (kidOf h.vT k k1 k2) hot k2).1 hok⟩
    · right
      exact hST hbu hfl
  · have h1 := (h.seq.filter fun u => decide (u.1 = q)).map φ
    rw [uids_tagged, ← ids h.vT, List.filter_filter] at h1
    have h2 : ((D.kids.map (uid d sc)).filter fun u => decide (u.1 = q) && decide (u ∈ T.kids.map (uid d sc))) =
        ((tagged q D.kids).map (uid d sc)).filter fun u => decide (u ∈ T.kids.map (uid d sc)) := by
      rw [← uids_tagged, List.filter_filter]
      exact List.filter_congr fun u _ => Bool.and_comm _ _
    rw [h2, List.filter_map, List.map_map] at h1
    rw [List.filter_map]
    have h3 : (tagged q D.kids).filter ((fun u => decide (u ∈ (tagged q T.kids).map (identity p))) ∘ identity p) =
        (tagged q D.kids).filter ((fun u => decide (u ∈ T.kids.map (uid d sc))) ∘ uid d sc) := by
      refine List.filter_congr fun o ho => ?_
      obtain ⟨o1, o2⟩ := mem_tagged.1 ho
      rw [Bool.eq_iff_iff]
      simp only [Function.comp, decide_eq_true_eq, List.mem_map]
      constructor
      · rintro ⟨k, hk', he⟩
        obtain ⟨k1, k2⟩ := mem_tagged.1 hk'
        exact ⟨k, k1, (same (kidOf h.vT k k1 k2) (kidOf h.vD o o1 o2) k2 o2).2 he⟩
      · rintro ⟨k, k1, he⟩
        have k2 := (tag_of_uid he).trans o2
        exact ⟨k, mem_tagged.2 ⟨k1, k2⟩, (same (kidOf h.vT k k1 k2) (kidOf h.vD o o1 o2) k2 o2).1 he⟩
    rw [h3]
    have h4 : ((tagged q D.kids).filter ((fun u => decide (u ∈ T.kids.map (uid d sc))) ∘ uid d sc)).map (identity p) =
        ((tagged q D.kids).filter ((fun u => decide (u ∈ T.kids.map (uid d sc))) ∘ uid d sc)).map (φ ∘ uid d sc) := by
      refine List.map_congr_left fun o ho => ?_
      obtain ⟨o1, o2⟩ := mem_tagged.1 (List.mem_filter.1 ho).1
      exact (hφ o o2 (kidOf h.vD o o1 o2)).symm
    rw [h4]
    exact h1
  · -- what is not touched
    refine ⟨fun k hk' hky => ?_, fun hnT => ?_⟩
    · obtain ⟨k1, k2⟩ := mem_tagged.1 hk'
      have kK := kidOf h.vT k k1 k2
      have hlk : d.lookup sc k.tag = .ok f := by rw [k2]; exact hf.lookup
      have hnoD : ∀ o ∈ D.kids, uid d sc o ≠ uid d sc k := by
        intro o ho he
        have o2 := (tag_of_uid he).trans k2
        exact hno (List.mem_map.2 ⟨o, mem_tagged.2 ⟨ho, o2⟩, ((same (kidOf h.vD o ho o2) kK o2 k2).1 he).trans hky⟩)
      by_cases hS : ∃ s ∈ S.kids, uid d sc s = uid d sc k
      · obtain ⟨s, hs, hsk⟩ := hS
        have hst : s.tag = q := (tag_of_uid hsk).trans k2
        have hsq : s ∈ tagged q S.kids := mem_tagged.2 ⟨hs, hst⟩
        have hsid : identity p s = identity p k := (same (kidOf h.vS s hs hst) kK hst k2).1 hsk
        have hsame := h.out s hs k k1 hsk hnoD f hlk
        refine ⟨fun hl => ?_, fun hkind => ?_⟩
        · rw [← value p hp hl q hq s hsq y hy]
          have hv := hsame.2
          cases hv with
          | mk _ v _ _ _ _ =>
            rw [parseTextAt_node, parseTextAt_node] at v
            exact (hf.value hl k s (k2.trans hst.symm) (fT.value' k1 hp (by rw [k2]; exact hq) hl)
              (fS.value' hs hp (by rw [hst]; exact hq) hl)).1 v
        · exact (holds_of_same k hf.field (h.vT.sub' k k1 f hlk) (h.vS.sub' s hs f (by rw [hst]; exact hf.lookup))
            (fT.sub'' k1 hp (by rw [k2]; exact hq)) (fS.sub'' hs hp (by rw [hst]; exact hq)) ⟨hsame.2, hsame.1⟩).trans (sub p hp hkind q hq s hsq y hy (hsid.trans hky))
      · obtain ⟨o, ho, he⟩ := h.new k k1 fun s hs he => hS ⟨s, hs, he⟩
        exact absurd he (hnoD o ho)
    · have hnS : ∀ s ∈ tagged q S.kids, identity p s ≠ identity p y := by
        intro s hs hsy
        obtain ⟨s1, s2⟩ := mem_tagged.1 hs
        have kS := kidOf h.vS s s1 s2
        obtain ⟨o, ho, he⟩ := h.gone s s1 (by
          intro k k1 he
          have k2 := (tag_of_uid he).trans s2
          exact hnT k (mem_tagged.2 ⟨k1, k2⟩) (((same (kidOf h.vT k k1 k2) kS k2 s2).1 he).trans hsy))
        have o2 := (tag_of_uid he).trans s2
        exact hno (List.mem_map.2 ⟨o, mem_tagged.2 ⟨ho, o2⟩, ((same (kidOf h.vD o ho o2) kS o2 s2).1 he).trans hsy⟩)
      exact ⟨(more y hy hnS).1, (more y hy hnS).2, empty y hy hnS⟩
  · by_contra hnT
    have hnS : ∀ s ∈ tagged q S.kids, identity p s ≠ identity p y := by
      intro s hs hsy
      obtain ⟨s1, s2⟩ := mem_tagged.1 hs
      have kS := kidOf h.vS s s1 s2
      obtain ⟨o, ho, he⟩ := h.gone s s1 (by
        intro k k1 he
        have k2 := (tag_of_uid he).trans s2
        exact hnT (List.mem_map.2 ⟨k, mem_tagged.2 ⟨k1, k2⟩, ((same (kidOf h.vT k k1 k2) kS k2 s2).1 he).trans hsy⟩))
      have o2 := (tag_of_uid he).trans s2
      exact hno (List.mem_map.2 ⟨o, mem_tagged.2 ⟨ho, o2⟩, ((same (kidOf h.vD o ho o2) kS o2 s2).1 he).trans hsy⟩)
    have hc := (more y hy hnS).1
    have := (byUser_iff.1 hbu).1
    rw [hc] at this
    exact absurd this (by decide)
  · obtain ⟨k, hk', rfl⟩ := List.mem_map.1 hu'
    obtain ⟨k1, k2⟩ := mem_tagged.1 hk'
    have kK := kidOf h.vT k k1 k2
    by_cases hS : ∃ s ∈ S.kids, uid d sc s = uid d sc k
    · obtain ⟨s, hs, hsk⟩ := hS
      have hst : s.tag = q := (tag_of_uid hsk).trans k2
      obtain ⟨y, hy, hsy⟩ := has s (mem_tagged.2 ⟨hs, hst⟩)
      exact List.mem_map.2 ⟨y, hy, hsy.symm.trans ((same (kidOf h.vS s hs hst) kK hst k2).1 hsk)⟩
    · obtain ⟨o, ho, he⟩ := h.new k k1 fun s hs he => hS ⟨s, hs, he⟩
      have o2 := (tag_of_uid he).trans k2
      exact absurd (List.mem_map.2 ⟨o, mem_tagged.2 ⟨ho, o2⟩, (same (kidOf h.vD o ho o2) kK o2 k2).1 he⟩) hno

/-- One level. -/
theorem level_serve {ω : Prop} {sc : Scope} {pl : List Place} {S T D : Elem} {m : List Elem} (h : DiffBase ω d sc S T D)
    (hF : Field d rd sc pl) (fS : Fits d pl S) (fT : Fits d pl T) (hB : Below d sc pl S T D) (hm : Holds pl S.kids m) :
    ∃ r, serve pl D.kids m = some r ∧ Holds pl T.kids r := by
  have all : ∀ t, ∃ R, serve pl (tagged t D.kids) (tagged t m) = some R ∧
      ∀ p ∈ pl, DataKind p.2 → Named p.1 t p.2 → (R.map (identity p)).Nodup ∧ (∀ y ∈ R, Fine p (tagged t T.kids) y) ∧
        (∀ u ∈ (tagged t T.kids).map (identity p), u ∈ R.map (identity p)) ∧
        (byUser p = true → R.map (identity p) = (tagged t T.kids).map (identity p)) := by
    intro t
    by_cases ht : ∃ p ∈ pl, DataKind p.2 ∧ Named p.1 t p.2
    · obtain ⟨p, hp, hk, hq⟩ := ht
      obtain ⟨R, h1, _, h3⟩ := (level_tag h hF fS fT hB hm hp hq hk).result
      refine ⟨R, h1, fun p' hp' _ hq' => ?_⟩
      rw [hF.one p' hp' p hp t hq' hq]
      exact h3
    · have h0 : tagged t D.kids = [] := by
        rw [List.eq_nil_iff_forall_not_mem]
        intro o ho
        obtain ⟨o1, o2⟩ := mem_tagged.1 ho
        rcases h.only o o1 with ⟨k, hk, he⟩ | ⟨k, hk, he⟩
        · obtain ⟨p, hp, hn, hk'⟩ := fT.node' hk
          rw [(tag_of_uid he).trans o2] at hn
          exact ht ⟨p, hp, hk', hn⟩
        · obtain ⟨p, hp, hn, hk'⟩ := fS.node' hk
          rw [(tag_of_uid he).trans o2] at hn
          exact ht ⟨p, hp, hk', hn⟩
      exact ⟨tagged t m, by rw [h0, serve], fun p hp hk hq => absurd ⟨p, hp, hk, hq⟩ ht⟩
  choose R hR1 hR2 using all
  obtain ⟨r, hr1, hr2⟩ := serve_tagged hR1
  refine ⟨r, hr1, ?_⟩
  have kind : ∀ {p : Place}, p.2.info.keyword = "container" ∨ p.2.info.keyword = "list" → DataKind p.2 := by
    intro p h; rcases h with h | h <;> simp [DataKind, h]
  refine ⟨fun p hp hk q hq => ?_, fun p hp hk q hq x hx => ?_, fun p hp hk q hq y hy hno => ?_,
    fun p hp hk q hq y hy hno => ?_, fun p hp hk hu q hq => ?_, fun p hp hk q hq x hx y hy => ?_,
    fun p hp hk q hq x hx y hy hxy => ?_⟩
  · obtain ⟨f, hf⟩ := hF.fact hp hq hk
    rw [hr2]
    exact ⟨identity_nodup hf h.vT, (hR2 q p hp hk hq).1⟩
  · obtain ⟨y, hy, he⟩ := List.mem_map.1 ((hR2 q p hp hk hq).2.2.1 _ (List.mem_map_of_mem hx))
    rw [hr2]
    exact ⟨y, hy, he.symm⟩
  · rw [hr2] at hy
    have := ((hR2 q p hp hk hq).2.1 y hy).2 hno
    exact ⟨this.1, this.2.1⟩
  · rw [hr2] at hy
    exact (((hR2 q p hp hk hq).2.1 y hy).2 hno).2.2
  · rw [hr2]
    exact ((hR2 q p hp (by rcases hk with hk | hk <;> simp [DataKind, hk]) hq).2.2.2 (byUser_iff.2 ⟨hk, hu⟩)).symm
  · rw [hr2] at hy
    have id0 : ∀ x, identity p x = [] := identity_nil (by rw [hk]; decide) (by rw [hk]; decide)
    exact (((hR2 q p hp (by simp [DataKind, hk]) hq).2.1 y hy).1 x hx (by rw [id0, id0])).1 hk
  · rw [hr2] at hy
    exact (((hR2 q p hp (kind hk) hq).2.1 y hy).1 x hx hxy).2 hk

end
end NcDiff.Compile
