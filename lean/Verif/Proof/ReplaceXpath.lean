import Verif.Model.ReplaceXpath
import Verif.Spec.Position
import Verif.Proof.Replace
/-! # Lemmas about marking nodes by XPath -/

namespace NcDiff

theorem mem_underKid {i : Nat} {sel : List (List Nat)} {p : List Nat} : p ∈ underKid i sel ↔ i :: p ∈ sel := by
  unfold underKid
  rw [List.mem_filterMap]
  constructor
  · rintro ⟨q, hq, h⟩
    cases q with
    | nil => simp at h
    | cons j r =>
      simp only at h
      split at h
      · rename_i hj
        cases h
        exact hj ▸ hq
      · cases h
  · intro h
    exact ⟨_, h, by simp⟩

theorem markKids_get (sel : List (List Nat)) : ∀ (ks : List Elem) (i j : Nat),
    (markKids sel i ks)[j]? = (ks[j]?).map (markNode (underKid (i + j) sel))
  | [], i, j => by simp [markKids]
  | k :: ks, i, 0 => by simp [markKids]
  | k :: ks, i, j + 1 => by
    rw [markKids, List.getElem?_cons_succ, List.getElem?_cons_succ, markKids_get sel ks (i + 1) j]
    rw [show i + 1 + j = i + (j + 1) by omega]

theorem markNode_kids (sel : List (List Nat)) (e : Elem) : (markNode sel e).kids = markKids sel 0 e.kids := by
  cases e
  rw [markNode]
  split <;> rfl

theorem markNode_marked (p : List Nat) : ∀ (sel : List (List Nat)) (e : Elem),
    match e.at? p, (markNode sel e).at? p with
    | none, none => True
    | some y, some y' => y'.tag = y.tag ∧ y'.nsmap = y.nsmap ∧ y'.text = y.text ∧
        (p ∉ sel → y'.attrs = y.attrs) ∧
        (p ∈ sel → y'.get (.other "operation") = some (.str "replace") ∧
          ∀ n, n ≠ .other "operation" → y'.get n = y.get n)
    | _, _ => False := by
  induction p with
  | nil =>
    intro sel e
    simp only [Elem.at?]
    obtain ⟨t, n, a, x, ks⟩ := e
    rw [markNode]
    by_cases h : [] ∈ sel
    · rw [if_pos h]
      refine ⟨rfl, rfl, rfl, fun hn => absurd h hn, fun _ => ⟨?_, fun m hm => ?_⟩⟩
      · rw [get_set, if_pos rfl]
      · rw [get_set, if_neg hm]; rfl
    · rw [if_neg h]
      exact ⟨rfl, rfl, rfl, fun _ => rfl, fun hn => absurd hn h⟩
  | cons i p ih =>
    intro sel e
    simp only [Elem.at?]
    rw [markNode_kids, markKids_get]
    cases hk : e.kids[i]? with
    | none => simp
    | some k =>
      simp only [Option.map_some, Nat.zero_add]
      have := ih (underKid i sel) k
      simp only [mem_underKid] at this
      exact this

theorem strip_markKids (sel : List (List Nat)) : ∀ (ks : List Elem) (i : Nat),
    (∀ k ∈ ks, ∀ sel, strip (markNode sel k) = strip k) → (markKids sel i ks).map strip = ks.map strip
  | [], _, _ => rfl
  | k :: ks, i, h => by
    rw [markKids, List.map_cons, List.map_cons, h k (by simp), strip_markKids sel ks (i + 1)
      (fun x hx => h x (List.mem_cons_of_mem _ hx))]

theorem strip_markNode : ∀ (e : Elem) (sel : List (List Nat)), strip (markNode sel e) = strip e := by
  intro e
  induction e using Elem.ind with
  | h t n a x ks ih =>
    intro sel
    have hk := strip_markKids sel ks 0 ih
    rw [markNode]
    split
    · show strip (.mk t n (Elem.setA (.other "operation") (.str "replace") a) x (markKids sel 0 ks)) = _
      rw [strip, strip, filter_setA, stripList_eq, stripList_eq, hk]
    · rw [strip, strip, stripList_eq, stripList_eq, hk]

theorem nodeAdd_markNode (d : Device) (sel : List (List Nat)) (o : Elem) (sc : Scope) (s : Elem) :
    nodeAdd d (markNode sel o) sc s = nodeAdd d o sc s := by
  rw [← nodeAdd_strip, strip_markNode, nodeAdd_strip]

end NcDiff
