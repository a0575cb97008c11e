import Verif.Proof.Store
import Verif.Spec.Demo
/-!
# C27: the schema look-up cache is coherent
-/

namespace NcDiff
open Store

/-- **C27.**  After any history of model loads and schema look-ups in which models of different
names have no root in common, every schema look-up - successful or not - gives what it would
give if nothing were cached: the same object of the currently loaded model. -/
theorem C27_cache_coherent {s : Store} (h : Reachable s) (path : List QName) :
    (s.get path).1 = (s.withoutCache.get path).1 := by
  rw [(get_spec (reachable_cacheOk h) path).1,
    (get_spec (s := s.withoutCache) (fun e he => by cases he) path).1]
  exact unc_congr (s := s) (t := s.withoutCache) rfl path

/-- **C27.**  A look-up changes no loaded model, so it changes the answer to no other look-up. -/
theorem C27_lookups_commute {s : Store} (h : Reachable s) (path other : List QName) :
    ((s.get path).2.get other).1 = (s.get other).1 := by
  have hc := reachable_cacheOk h
  obtain ⟨_, h2, h3⟩ := get_spec hc path
  rw [(get_spec h3 other).1, (get_spec hc other).1]
  exact unc_congr h2 other

/-- **C27.**  What a look-up finds is what the look-up step of the rest of this model
(`Device.lookup`, which has no cache) finds from the root to the node, so leaving the cache out
there is no loss. -/
theorem C27_lookup_is_uncached {s : Store} (h : Reachable s)
    (namespaces : List (String × String × String)) (path : List QName) :
    ((s.get path).1).map SRef.node = (s.device namespaces).locate path := by
  rw [(get_spec (reachable_cacheOk h) path).1,
    locate_eq (history_names (reachable_history h))]

/-- **C27.**  Loading or reloading a model never raises, whatever has been loaded and looked up
before (`load_model` looks up the root of every cached path). -/
theorem C27_load_succeeds {s : Store} (h : AnyHistory s) (name : String) (tree : List SNode) :
    ∃ s', s.load name tree = .ok s' :=
  load_succeeds h name tree

/-- **C27.**  After a (re)load, look-ups under the roots of the new model find nodes of the new
model object only. -/
theorem C27_reload_takes_effect {s s' : Store} {name : String} {tree : List SNode}
    (h : Reachable s)
    (hd : ∀ m ∈ s.models, m.name ≠ name → ∀ r ∈ m.tree.map SNode.tag, r ∉ tree.map SNode.tag)
    (hl : s.load name tree = .ok s') {path : List QName} {r : SRef}
    (hp : path.getLastD default ∈ tree.map SNode.tag) (hr : (s'.get path).1 = .ok r) :
    r.model = s.next := by
  have hs' : Reachable s' := .load h hd hl
  rw [(get_spec (reachable_cacheOk hs') path).1] at hr
  have hown : ∃ m, s'.rootModel (path.getLastD default) = some m ∧ m.id = s.next := by
    obtain ⟨m, hm⟩ := Option.isSome_iff_exists.mp (unc_ok_root hr)
    refine ⟨m, hm, ?_⟩
    have ho := owner_mem hm
    have hmm := (load_ok hl).1
    rw [hmm] at ho
    rcases of_mem_setModel ho.1 with rfl | hin
    · rfl
    · exfalso
      by_cases hn : m.name = name
      · -- the only model of that name is the new one
        have hnod := history_names (reachable_history hs')
        rw [hmm] at hnod
        have hnew : (⟨s.next, name, tree⟩ : Loaded) ∈ setModel ⟨s.next, name, tree⟩ s.models := by
          have : ∀ (n : Loaded) (l : List Loaded), n ∈ setModel n l := by
            intro n l
            induction l with
            | nil => exact List.mem_singleton.mpr rfl
            | cons a l ih =>
              unfold setModel
              split
              · exact List.mem_cons_self
              · exact List.mem_cons_of_mem _ ih
          exact this _ _
        have heq : m = ⟨s.next, name, tree⟩ := List.inj_on_of_nodup_map hnod ho.1 hnew hn
        have hold : ∀ x ∈ s.models, x.id < s.next := history_ids (reachable_history h)
        have := hold m hin
        rw [heq] at this
        exact absurd this (Nat.lt_irrefl _)
      · exact hd m hin hn _ ho.2 hp
  obtain ⟨m, hm, hid⟩ := hown
  rw [← hid]
  exact (unc_model hm hr).symm

namespace Demo

/-- Two models, a history with look-ups, and a reload of the first model. -/
def st1 : Store :=
  match ({} : Store).load "m" [SNode.mk { tag := q "a", ntype := .container }
      [SNode.mk { tag := q "b", ntype := .leaf } []]] with
  | .ok s => (s.get [q "b", q "a"]).2
  | .error _ => {}

example : Reachable st1 := by
  have h : Reachable _ := .load (name := "m") (tree := [SNode.mk { tag := q "a", ntype := .container }
      [SNode.mk { tag := q "b", ntype := .leaf } []]]) .start (by intro m hm; cases hm) rfl
  exact .get [q "b", q "a"] h

/-- `b` and `a` are cached. -/
example : st1.nodes.map Prod.fst = [[q "b", q "a"], [q "a"]] := rfl

/-- After a reload without `b`, looking up `b` raises although it was cached. -/
example : ∃ s', st1.load "m" [SNode.mk { tag := q "a", ntype := .container } []] = .ok s' ∧
    (s'.get [q "b", q "a"]).1 = .error .configError := ⟨_, rfl, rfl⟩

/-- **C27, why the hypothesis is there.**  If a model of another name with the same root is
loaded, the cache still answers with the old model's node. -/
theorem C27_shared_root_is_stale :
    ∃ s', st1.load "m2" [SNode.mk { tag := q "a", ntype := .leaf } []] = .ok s' ∧
      (s'.get [q "a"]).1.map (fun r => r.model) = .ok 0 ∧
      (s'.withoutCache.get [q "a"]).1.map (fun r => r.model) = .ok 1 :=
  ⟨_, rfl, rfl, rfl⟩

end Demo
end NcDiff
