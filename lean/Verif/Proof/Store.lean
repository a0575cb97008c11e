import Verif.Spec.Store
import Verif.Proof.Tree
/-!
# The schema node cache is coherent
-/

namespace NcDiff
namespace Store

/-- Look-up that neither reads nor writes the cache. -/
def unc (s : Store) : List QName → Except Err SRef
  | [] => .error .indexError
  | tag :: up =>
    if up = [] then
      match s.rootModel tag with
      | none => .error .modelMissing
      | some m =>
        match getChild m.tree tag with
        | .error e => .error e
        | .ok f => .ok ⟨m.id, f.path, f.node⟩
    else
      match s.unc up with
      | .error e => .error e
      | .ok p =>
        match getChild p.node.kids tag with
        | .error e => .error e
        | .ok f => .ok ⟨p.model, p.path ++ f.path, f.node⟩

/-- Every cached entry is what a look-up without the cache gives. -/
def CacheOk (s : Store) : Prop := ∀ e ∈ s.nodes, s.unc e.1 = .ok e.2

theorem unc_congr {s t : Store} (h : s.models = t.models) : ∀ p, s.unc p = t.unc p
  | [] => rfl
  | tag :: up => by
    unfold unc
    rw [unc_congr h up]
    have : s.rootModel tag = t.rootModel tag := by unfold rootModel; rw [h]
    rw [this]

theorem cacheOk_remember {s : Store} {p r} (h : CacheOk s) (hr : s.unc p = .ok r) :
    CacheOk (s.remember p r).2 := by
  intro e he
  rw [unc_congr (s := (s.remember p r).2) (t := s) rfl]
  rcases List.mem_cons.mp he with rfl | he
  · exact hr
  · exact h e he

theorem mem_of_lookup {α β : Type} [BEq α] [LawfulBEq α] {k : α} {v : β} :
    ∀ {l : List (α × β)}, l.lookup k = some v → (k, v) ∈ l
  | [], h => by cases h
  | (a, b) :: r, h => by
    rw [List.lookup_cons] at h
    split at h
    · rename_i hk
      cases h
      rw [eq_of_beq hk]; exact List.mem_cons_self
    · exact List.mem_cons_of_mem _ (mem_of_lookup h)

theorem get_spec {s : Store} (h : CacheOk s) : ∀ p,
    (s.get p).1 = s.unc p ∧ (s.get p).2.models = s.models ∧ CacheOk (s.get p).2
  | [] => ⟨rfl, rfl, h⟩
  | tag :: up => by
    have ih := get_spec h up
    unfold get
    cases hl : s.nodes.lookup (tag :: up) with
    | some r => exact ⟨(h _ (mem_of_lookup hl)).symm, rfl, h⟩
    | none =>
      simp only []
      by_cases hu : up = []
      · subst hu
        simp only [if_true]
        unfold unc
        simp only [if_true]
        cases hm : s.rootModel tag with
        | none => exact ⟨rfl, rfl, h⟩
        | some m =>
          simp only []
          cases hc : getChild m.tree tag with
          | error e => exact ⟨rfl, rfl, h⟩
          | ok f =>
            refine ⟨rfl, rfl, cacheOk_remember h ?_⟩
            unfold unc; simp only [if_true, hm, hc]
      · simp only [hu, if_false]
        have hun : s.unc (tag :: up) = (match s.unc up with
          | .error e => .error e
          | .ok p =>
            match getChild p.node.kids tag with
            | .error e => .error e
            | .ok f => .ok ⟨p.model, p.path ++ f.path, f.node⟩) := by
          conv => lhs; unfold unc
          simp only [hu, if_false]
        rw [hun]
        obtain ⟨h1, h2, h3⟩ := ih
        rcases hg : s.get up with ⟨a, s'⟩
        rw [hg] at h1 h2 h3
        simp only at h1 h2 h3
        cases a with
        | error e => rw [← h1]; exact ⟨rfl, h2, h3⟩
        | ok p =>
          rw [← h1]
          simp only []
          cases hc : getChild p.node.kids tag with
          | error e => exact ⟨rfl, h2, h3⟩
          | ok f =>
            refine ⟨rfl, h2, cacheOk_remember h3 ?_⟩
            rw [unc_congr h2, hun, ← h1]
            simp only [hc]

/-! ## Loading -/

theorem rootModel_nil (n c r) : (Store.mk [] c n).rootModel r = none := rfl

/-- `rootModel` as a function of the list of models. -/
def owner (r : QName) (ms : List Loaded) : Option Loaded :=
  ms.reverse.find? (fun m => r ∈ m.roots)

theorem rootModel_eq (s : Store) (r) : s.rootModel r = owner r s.models := rfl

theorem owner_cons (r : QName) (x : Loaded) (ms : List Loaded) :
    owner r (x :: ms) = (owner r ms).or (if r ∈ x.roots then some x else none) := by
  unfold owner
  rw [List.reverse_cons, List.find?_append]
  congr 1
  rw [List.find?_singleton]
  by_cases h : r ∈ x.roots <;> simp [h]

theorem owner_mem {r : QName} {ms : List Loaded} {m} (h : owner r ms = some m) :
    m ∈ ms ∧ r ∈ m.roots := by
  unfold owner at h
  refine ⟨List.mem_reverse.mp (List.mem_of_find?_eq_some h), ?_⟩
  simpa using List.find?_some h

theorem owner_none {r : QName} {ms : List Loaded} (h : owner r ms = none) :
    ∀ m ∈ ms, r ∉ m.roots := by
  unfold owner at h
  intro m hm
  simpa using List.find?_eq_none.mp h m (List.mem_reverse.mpr hm)

theorem owner_setModel {r : QName} {n : Loaded} (hr : r ∉ n.roots) :
    ∀ {ms : List Loaded} {m}, owner r ms = some m → m.name ≠ n.name →
      owner r (setModel n ms) = some m
  | [], m, h, _ => by cases h
  | x :: ms, m, h, hn => by
    rw [owner_cons] at h
    unfold setModel
    by_cases hx : x.name = n.name
    · simp only [hx, if_true]
      rw [owner_cons]
      simp only [hr, if_false, Option.or_none]
      cases ho : owner r ms with
      | some y => rw [ho] at h; simpa using h
      | none =>
        rw [ho, Option.none_or] at h
        split at h
        · cases h; exact absurd hx hn
        · cases h
    · simp only [hx, if_false]
      rw [owner_cons]
      cases ho : owner r ms with
      | some y =>
        rw [ho, Option.some_or] at h
        cases h
        rw [owner_setModel hr ho hn]; rfl
      | none =>
        rw [ho, Option.none_or] at h
        have : owner r (setModel n ms) = none := by
          cases hs : owner r (setModel n ms) with
          | none => rfl
          | some z =>
            exfalso
            have hz := owner_mem hs
            have hno := owner_none ho
            have hsub : ∀ (l : List Loaded) z, z ∈ setModel n l → z = n ∨ z ∈ l := by
              intro l
              induction l with
              | nil => intro z hz; left; simpa [setModel] using hz
              | cons a l ih =>
                intro z hz
                unfold setModel at hz
                split at hz
                · rcases List.mem_cons.mp hz with rfl | hz
                  · exact .inl rfl
                  · exact .inr (List.mem_cons_of_mem _ hz)
                · rcases List.mem_cons.mp hz with rfl | hz
                  · exact .inr List.mem_cons_self
                  · rcases ih z hz with h | h
                    · exact .inl h
                    · exact .inr (List.mem_cons_of_mem _ h)
            rcases hsub ms z hz.1 with rfl | hm
            · exact hr hz.2
            · exact hno z hm hz.2
        rw [this, Option.none_or]; exact h

theorem mem_setModel {n : Loaded} : ∀ {ms : List Loaded} {z}, z ∈ ms → z.name ≠ n.name →
    z ∈ setModel n ms
  | [], _, h, _ => by cases h
  | x :: ms, z, h, hn => by
    unfold setModel
    split
    · rename_i hx
      rcases List.mem_cons.mp h with rfl | h
      · exact absurd hx hn
      · exact List.mem_cons_of_mem _ h
    · rcases List.mem_cons.mp h with rfl | h
      · exact List.mem_cons_self
      · exact List.mem_cons_of_mem _ (mem_setModel h hn)

theorem of_mem_setModel {n : Loaded} : ∀ {ms : List Loaded} {z}, z ∈ setModel n ms →
    z = n ∨ z ∈ ms
  | [], z, hz => by left; simpa [setModel] using hz
  | a :: l, z, hz => by
    unfold setModel at hz
    split at hz
    · rcases List.mem_cons.mp hz with rfl | hz
      · exact .inl rfl
      · exact .inr (List.mem_cons_of_mem _ hz)
    · rcases List.mem_cons.mp hz with rfl | hz
      · exact .inr List.mem_cons_self
      · rcases of_mem_setModel hz with h | h
        · exact .inl h
        · exact .inr (List.mem_cons_of_mem _ h)

theorem owner_isSome {r : QName} {ms : List Loaded} {m} (hm : m ∈ ms) (hr : r ∈ m.roots) :
    (owner r ms).isSome := by
  cases h : owner r ms with
  | some _ => rfl
  | none => exact absurd hr (owner_none h m hm)

theorem dropEntries_mem {s : Store} {name} : ∀ {l l'}, s.dropEntries name l = .ok l' →
    ∀ e ∈ l', e ∈ l ∧ ∃ m, s.rootModel (e.1.getLastD default) = some m ∧ m.name ≠ name
  | [], l', h => by cases h; intro e he; cases he
  | x :: l, l', h => by
    unfold dropEntries at h
    obtain ⟨r, hr, h⟩ := bind_ok.mp h
    have ih := dropEntries_mem hr
    have wk : ∀ e ∈ r, e ∈ x :: l ∧ ∃ m, s.rootModel (e.1.getLastD default) = some m ∧
        m.name ≠ name := fun e he => ⟨List.mem_cons_of_mem _ (ih e he).1, (ih e he).2⟩
    split at h
    · cases h
    · rename_i m hm
      split at h
      · cases h; exact wk
      · rename_i hn
        cases h
        intro e he
        rcases List.mem_cons.mp he with rfl | he
        · exact ⟨List.mem_cons_self, m, hm, hn⟩
        · exact wk e he

theorem dropEntries_ok {s : Store} {name} : ∀ {l : List (List QName × SRef)},
    (∀ e ∈ l, (s.rootModel (e.1.getLastD default)).isSome) → ∃ l', s.dropEntries name l = .ok l'
  | [], _ => ⟨[], rfl⟩
  | x :: l, h => by
    obtain ⟨l', hl⟩ := dropEntries_ok (name := name) (fun e he => h e (List.mem_cons_of_mem _ he))
    obtain ⟨m, hm⟩ := Option.isSome_iff_exists.mp (h x List.mem_cons_self)
    unfold dropEntries
    rw [hl]
    by_cases hn : m.name = name
    · exact ⟨l', by simp only [bind, Except.bind, hm, hn, if_true]; rfl⟩
    · exact ⟨x :: l', by simp only [bind, Except.bind, hm, hn, if_false]; rfl⟩

/-- The outermost tag of a path decides the model. -/
theorem unc_root {s t : Store} : ∀ {p : List QName} {m : Loaded},
    s.rootModel (p.getLastD default) = some m → t.rootModel (p.getLastD default) = some m →
    s.unc p = t.unc p
  | [], _, _, _ => rfl
  | [tag], m, h1, h2 => by
    unfold unc
    simp only [List.getLastD_cons, List.getLastD_nil] at h1 h2
    simp only [if_true, h1, h2]
  | tag :: u :: up, m, h1, h2 => by
    have e : (tag :: u :: up).getLastD default = (u :: up).getLastD (default : QName) := by simp
    rw [e] at h1 h2
    have ih := unc_root h1 h2
    unfold unc
    rw [ih]
    simp only [List.cons_ne_nil, if_false]

theorem unc_ok_root {s : Store} : ∀ {p : List QName} {r}, s.unc p = .ok r →
    (s.rootModel (p.getLastD default)).isSome
  | [], r, h => by cases h
  | [tag], r, h => by
    unfold unc at h
    simp only [if_true] at h
    simp only [List.getLastD_cons, List.getLastD_nil]
    cases hm : s.rootModel tag with
    | none => rw [hm] at h; cases h
    | some m => rfl
  | tag :: u :: up, r, h => by
    unfold unc at h
    simp only [List.cons_ne_nil, if_false] at h
    cases hu : s.unc (u :: up) with
    | error e => rw [hu] at h; cases h
    | ok q =>
      have e : (tag :: u :: up).getLastD default = (u :: up).getLastD (default : QName) := by simp
      rw [e]
      exact unc_ok_root hu

/-- What loading does. -/
theorem load_ok {s s' : Store} {name tree} (h : s.load name tree = .ok s') :
    s'.models = setModel ⟨s.next, name, tree⟩ s.models ∧
    ∀ e ∈ s'.nodes, e ∈ s.nodes ∧
      (∀ m, s.rootModel (e.1.getLastD default) = some m → m.name ≠ name) := by
  unfold load at h
  split at h
  · obtain ⟨nodes, hn, h⟩ := bind_ok.mp h
    cases h
    refine ⟨rfl, fun e he => ?_⟩
    obtain ⟨h1, m, hm, hne⟩ := dropEntries_mem hn e he
    refine ⟨h1, fun m' hm' => ?_⟩
    rw [hm] at hm'; cases hm'; exact hne
  · rename_i hnot
    cases h
    refine ⟨rfl, fun e he => ⟨he, fun m hm hn => hnot ?_⟩⟩
    exact List.mem_map.mpr ⟨m, (owner_mem hm).1, hn⟩

theorem cacheOk_load {s s' : Store} {name tree} (hc : CacheOk s)
    (hd : ∀ m ∈ s.models, m.name ≠ name → ∀ r ∈ m.roots, r ∉ tree.map SNode.tag)
    (h : s.load name tree = .ok s') : CacheOk s' := by
  obtain ⟨hm, hn⟩ := load_ok h
  intro e he
  obtain ⟨h1, h2⟩ := hn e he
  have hu := hc e h1
  obtain ⟨m, hr⟩ := Option.isSome_iff_exists.mp (unc_ok_root hu)
  have hne := h2 m hr
  have ho := owner_mem hr
  have : s'.rootModel (e.1.getLastD default) = some m := by
    rw [rootModel_eq, hm]
    exact owner_setModel (hd m ho.1 hne _ ho.2) hr hne
  rw [← unc_root hr this]; exact hu

theorem reachable_cacheOk {s : Store} (h : Reachable s) : CacheOk s := by
  induction h with
  | start => intro e he; cases he
  | load _ hd hl ih => exact cacheOk_load ih hd hl
  | get p _ ih => exact (get_spec ih p).2.2

/-! ## No `KeyError` in `load_model` -/

/-- The root of every cached path is a root of a loaded model. -/
def RootsOk (s : Store) : Prop :=
  ∀ e ∈ s.nodes, e.1 ≠ [] ∧ (s.rootModel (e.1.getLastD default)).isSome

theorem rootsOk_load {s s' : Store} {name tree} (hc : RootsOk s)
    (h : s.load name tree = .ok s') : RootsOk s' := by
  obtain ⟨hm, hn⟩ := load_ok h
  intro e he
  obtain ⟨h1, h2⟩ := hn e he
  obtain ⟨h3, h4⟩ := hc e h1
  obtain ⟨m, hr⟩ := Option.isSome_iff_exists.mp h4
  have ho := owner_mem hr
  refine ⟨h3, ?_⟩
  rw [rootModel_eq, hm]
  exact owner_isSome (mem_setModel ho.1 (h2 m hr)) ho.2

theorem rootsOk_get {s : Store} (h : RootsOk s) : ∀ p,
    (s.get p).2.models = s.models ∧ RootsOk (s.get p).2 ∧
      (∀ r, (s.get p).1 = .ok r → p ≠ [] ∧ (s.rootModel (p.getLastD default)).isSome)
  | [] => ⟨rfl, h, fun r hr => by cases hr⟩
  | tag :: up => by
    obtain ⟨h1, h2, h3⟩ := rootsOk_get h up
    have rem : ∀ {t : Store} {p r}, t.models = s.models → RootsOk t → p ≠ [] →
        (s.rootModel (p.getLastD default)).isSome → RootsOk (t.remember p r).2 := by
      intro t p r hm ht hp hr e he
      have e1 : ∀ q, (t.remember p r).2.rootModel q = s.rootModel q := by
        intro q; rw [rootModel_eq, rootModel_eq, ← hm]; rfl
      rcases List.mem_cons.mp he with rfl | he
      · exact ⟨hp, by rw [e1]; exact hr⟩
      · refine ⟨(ht e he).1, ?_⟩
        have := (ht e he).2
        rw [rootModel_eq, hm, ← rootModel_eq] at this
        rw [e1]; exact this
    unfold get
    cases hl : s.nodes.lookup (tag :: up) with
    | some r => exact ⟨rfl, h, fun _ _ => h _ (mem_of_lookup hl)⟩
    | none =>
      simp only []
      by_cases hu : up = []
      · subst hu
        simp only [if_true]
        cases hm : s.rootModel tag with
        | none => exact ⟨rfl, h, fun r hr => by cases hr⟩
        | some m =>
          have hs : (s.rootModel ([tag].getLastD default)).isSome := by
            simp only [List.getLastD_cons, List.getLastD_nil, hm]; rfl
          simp only []
          cases getChild m.tree tag with
          | error e => exact ⟨rfl, h, fun r hr => by cases hr⟩
          | ok f => exact ⟨rfl, rem rfl h (by simp) hs, fun _ _ => ⟨by simp, hs⟩⟩
      · simp only [hu, if_false]
        rcases hg : s.get up with ⟨a, s'⟩
        rw [hg] at h1 h2 h3
        simp only at h1 h2 h3
        cases a with
        | error e => exact ⟨h1, h2, fun r hr => by cases hr⟩
        | ok p =>
          obtain ⟨_, h4⟩ := h3 p rfl
          have hs : (s.rootModel ((tag :: up).getLastD default)).isSome := by
            obtain ⟨u, us, rfl⟩ := List.exists_cons_of_ne_nil hu
            have e : (tag :: u :: us).getLastD default = (u :: us).getLastD (default : QName) := by
              simp
            rw [e]; exact h4
          simp only []
          cases getChild p.node.kids tag with
          | error e => exact ⟨h1, h2, fun r hr => by cases hr⟩
          | ok f => exact ⟨h1, rem h1 h2 (by simp) hs, fun _ _ => ⟨by simp, hs⟩⟩

theorem history_rootsOk {s : Store} (h : AnyHistory s) : RootsOk s := by
  induction h with
  | start => intro e he; cases he
  | load _ hl ih => exact rootsOk_load ih hl
  | get p _ ih => exact (rootsOk_get ih p).2.1

theorem load_succeeds {s : Store} (h : AnyHistory s) (name tree) :
    ∃ s', s.load name tree = .ok s' := by
  unfold load
  split
  · obtain ⟨l, hl⟩ := dropEntries_ok (s := s) (name := name)
      (fun e he => (history_rootsOk h e he).2)
    rw [hl]; exact ⟨_, rfl⟩
  · exact ⟨_, rfl⟩

/-! ## Agreement with `Device.lookup` -/

theorem setModel_names (n : Loaded) : ∀ ms : List Loaded, (ms.map Loaded.name).Nodup →
    ((setModel n ms).map Loaded.name).Nodup
  | [], _ => by simp [setModel]
  | x :: ms, h => by
    rw [List.map_cons, List.nodup_cons] at h
    unfold setModel
    split
    · rename_i hx
      rw [List.map_cons, List.nodup_cons, ← hx]; exact h
    · rename_i hx
      rw [List.map_cons, List.nodup_cons]
      refine ⟨fun hm => ?_, setModel_names n ms h.2⟩
      obtain ⟨z, hz, hzn⟩ := List.mem_map.mp hm
      rcases of_mem_setModel hz with rfl | hz
      · exact hx hzn.symm
      · exact h.1 (List.mem_map.mpr ⟨z, hz, hzn⟩)

theorem reachable_history {s : Store} (h : Reachable s) : AnyHistory s := by
  induction h with
  | start => exact .start
  | load _ _ hl ih => exact .load ih hl
  | get p _ ih => exact .get p ih

theorem history_names {s : Store} (h : AnyHistory s) : (s.models.map Loaded.name).Nodup := by
  induction h with
  | start => exact List.nodup_nil
  | load _ hl ih => rw [(load_ok hl).1]; exact setModel_names _ _ ih
  | get p hs ih =>
    rw [(rootsOk_get (history_rootsOk hs) p).1]; exact ih

theorem lookup_roots (r : QName) : ∀ ms : List Loaded,
    (ms.flatMap fun m => m.tree.map fun t => (t.tag, m.name)).lookup r =
      (ms.find? (fun m => r ∈ m.roots)).map Loaded.name
  | [] => rfl
  | m :: ms => by
    have one : ∀ (l : List SNode) (rest : List (QName × String)),
        ((l.map fun t => (t.tag, m.name)) ++ rest).lookup r =
          if r ∈ l.map SNode.tag then some m.name else rest.lookup r := by
      intro l rest
      induction l with
      | nil => rfl
      | cons t l ih =>
        rw [List.map_cons, List.cons_append, List.lookup_cons]
        by_cases ht : r = t.tag
        · simp [ht]
        · have : (r == t.tag) = false := by simpa using ht
          rw [this, ih]
          simp [ht]
    rw [List.flatMap_cons, one, List.find?_cons, lookup_roots r ms]
    by_cases h : r ∈ m.roots
    · have h' : r ∈ m.tree.map SNode.tag := h
      simp only [h', if_true, h, decide_true, Option.map_some]
    · have h' : r ∉ m.tree.map SNode.tag := h
      simp only [h', if_false, h, decide_false]

theorem lookup_models {ms : List Loaded} (h : (ms.map Loaded.name).Nodup) {m} (hm : m ∈ ms) :
    (ms.map fun m => (m.name, m.tree)).lookup m.name = some m.tree := by
  induction ms with
  | nil => cases hm
  | cons x ms ih =>
    rw [List.map_cons, List.lookup_cons]
    rw [List.map_cons, List.nodup_cons] at h
    rcases List.mem_cons.mp hm with rfl | hm
    · simp
    · have : (m.name == x.name) = false := by
        simp only [beq_eq_false_iff_ne]
        intro he
        exact h.1 (he ▸ List.mem_map.mpr ⟨m, hm, rfl⟩)
      rw [this]; exact ih h.2 hm

mutual
/-- The nodes found do not depend on the position they are counted from. -/
theorem dataNode_pre {tag b} : ∀ (s : SNode) (p q : List Nat) (i j : Nat),
    (dataNode tag p b i s).map Found.node = (dataNode tag q b j s).map Found.node
  | .mk info ks, p, q, i, j => by
    rw [dataNode, dataNode]
    split
    · exact dataNodes_pre ks _ _ _ _
    · split
      · exact dataNodes_pre ks _ _ _ _
      · split <;> rfl

theorem dataNodes_pre {tag b} : ∀ (ks : List SNode) (p q : List Nat) (i j : Nat),
    (dataNodes tag p b i ks).map Found.node = (dataNodes tag q b j ks).map Found.node
  | [], _, _, _, _ => by simp [dataNodes]
  | k :: r, p, q, i, j => by
    rw [dataNodes, dataNodes, List.map_append, List.map_append, dataNode_pre k p q i j, dataNodes_pre r p q (i + 1) (j + 1)]
end

theorem lookup_root {s : Store} (hn : (s.models.map Loaded.name).Nodup) (ns) (tag : QName) :
    ((s.device ns).lookup .root tag).map Found.node =
      match s.rootModel tag with
      | none => .error .modelMissing
      | some m => (getChild m.tree tag).map Found.node := by
  unfold Device.lookup
  have : (s.device ns).roots.lookup tag = (s.rootModel tag).map Loaded.name := lookup_roots tag _
  simp only [this]
  cases h : s.rootModel tag with
  | none => rfl
  | some m =>
    have h2 : (s.device ns).models.lookup m.name = some m.tree := lookup_models hn (owner_mem h).1
    simp only [Option.map_some, h2, getChild]
    have he := dataNodes_pre (tag := tag) (b := false) m.tree
      [(s.device ns).models.findIdx (fun p => p.1 = m.name)] [] 0 0
    revert he
    generalize dataNodes tag [] false 0 m.tree = l
    generalize dataNodes tag [(s.device ns).models.findIdx (fun p => p.1 = m.name)] false 0 m.tree = l'
    intro he
    match l, l' with
    | [], [] => rfl
    | [], _ :: _ => simp at he
    | _ :: _, [] => simp at he
    | [f], [g] => simpa [Except.map] using he
    | [_], _ :: _ :: _ => simp at he
    | _ :: _ :: _, [_] => simp at he
    | _ :: _ :: _, _ :: _ :: _ => rfl

mutual
theorem dataNode_data {tag pre b i} : ∀ (s : SNode) (f : Found), f ∈ dataNode tag pre b i s →
    f.node.info.ntype ≠ .case
  | .mk info kids, f, hf => by
    unfold dataNode at hf
    split at hf
    · exact dataNodes_data _ _ hf
    · split at hf
      · exact dataNodes_data _ _ hf
      · rename_i hc
        split at hf
        · rw [List.mem_singleton] at hf; subst hf; exact hc
        · cases hf
theorem dataNodes_data {tag pre b i} : ∀ (l : List SNode) (f : Found),
    f ∈ dataNodes tag pre b i l → f.node.info.ntype ≠ .case
  | [], f, hf => by unfold dataNodes at hf; cases hf
  | s :: r, f, hf => by
    unfold dataNodes at hf
    rcases List.mem_append.mp hf with h | h
    · exact dataNode_data s f h
    · exact dataNodes_data r f h
end

theorem getChild_data {kids tag f} (h : getChild kids tag = .ok f) :
    f.node.info.ntype ≠ .case := by
  unfold getChild at h
  split at h
  · cases h
  · rename_i g hg
    cases h
    exact dataNodes_data kids f (by rw [hg]; exact List.mem_singleton.mpr rfl)
  · cases h

theorem unc_data {s : Store} : ∀ {p r}, s.unc p = .ok r → r.node.info.ntype ≠ .case
  | [], r, h => by cases h
  | tag :: up, r, h => by
    unfold unc at h
    split at h
    · cases hm : s.rootModel tag with
      | none => rw [hm] at h; cases h
      | some m =>
        rw [hm] at h
        simp only [] at h
        cases hc : getChild m.tree tag with
        | error e => rw [hc] at h; cases h
        | ok f => rw [hc] at h; cases h; exact getChild_data hc
    · cases hu : s.unc up with
      | error e => rw [hu] at h; cases h
      | ok q =>
        rw [hu] at h
        simp only [] at h
        cases hc : getChild q.node.kids tag with
        | error e => rw [hc] at h; cases h
        | ok f => rw [hc] at h; cases h; exact getChild_data hc

theorem locate_eq {s : Store} (hn : (s.models.map Loaded.name).Nodup) (ns) : ∀ p,
    (s.device ns).locate p = (s.unc p).map SRef.node
  | [] => rfl
  | tag :: up => by
    unfold Device.locate unc
    split
    · rw [lookup_root hn]
      cases s.rootModel tag with
      | none => rfl
      | some m =>
        simp only []
        cases getChild m.tree tag <;> rfl
    · rw [locate_eq hn ns up]
      cases hu : s.unc up with
      | error e => rfl
      | ok q =>
        have hq := unc_data hu
        have : (s.device ns).lookup (.node q.node) tag = getChild q.node.kids tag := by
          unfold Device.lookup getChild
          simp only [hq, decide_false]
          rfl
        simp only [Except.map, this]
        cases getChild q.node.kids tag <;> rfl

end Store
end NcDiff

namespace NcDiff
namespace Store

theorem load_next {s s' : Store} {name tree} (h : s.load name tree = .ok s') :
    s'.next = s.next + 1 := by
  unfold load at h
  split at h
  · obtain ⟨nodes, hn, h⟩ := bind_ok.mp h
    cases h; rfl
  · cases h; rfl

theorem get_next (s : Store) : ∀ p, (s.get p).2.next = s.next
  | [] => rfl
  | tag :: up => by
    have ih := get_next s up
    unfold get
    cases s.nodes.lookup (tag :: up) with
    | some r => rfl
    | none =>
      simp only []
      split
      · cases s.rootModel tag with
        | none => rfl
        | some m =>
          simp only []
          cases getChild m.tree tag <;> rfl
      · rcases hg : s.get up with ⟨a, s'⟩
        rw [hg] at ih
        cases a with
        | error e => exact ih
        | ok p =>
          simp only []
          cases getChild p.node.kids tag <;> exact ih

theorem history_ids {s : Store} (h : AnyHistory s) : ∀ m ∈ s.models, m.id < s.next := by
  induction h with
  | start => intro m hm; cases hm
  | load _ hl ih =>
    rw [(load_ok hl).1, load_next hl]
    intro m hm
    rcases of_mem_setModel hm with rfl | hm
    · exact Nat.lt_succ_self _
    · exact Nat.lt_succ_of_lt (ih m hm)
  | get p hs ih =>
    rw [(rootsOk_get (history_rootsOk hs) p).1, get_next]; exact ih

theorem unc_model {s : Store} : ∀ {p : List QName} {m : Loaded} {r : SRef},
    s.rootModel (p.getLastD default) = some m → s.unc p = .ok r → m.id = r.model
  | [], _, _, _, h => by cases h
  | [tag], m, r, h1, h => by
    unfold unc at h
    simp only [List.getLastD_cons, List.getLastD_nil] at h1
    simp only [if_true, h1] at h
    cases hc : getChild m.tree tag with
    | error e => rw [hc] at h; cases h
    | ok f => rw [hc] at h; cases h; rfl
  | tag :: u :: up, m, r, h1, h => by
    have e : (tag :: u :: up).getLastD default = (u :: up).getLastD (default : QName) := by simp
    rw [e] at h1
    unfold unc at h
    simp only [List.cons_ne_nil, if_false] at h
    cases hu : s.unc (u :: up) with
    | error e => rw [hu] at h; cases h
    | ok q =>
      rw [hu] at h
      simp only [] at h
      cases hc : getChild q.node.kids tag with
      | error e => rw [hc] at h; cases h
      | ok f => rw [hc] at h; cases h; exact (unc_model h1 hu : m.id = q.model)

end Store
end NcDiff
