import Verif.Proof.KeyText
/-!
# Executable versions of the conditions on keys
-/

namespace NcDiff

/-- The namespace of the module with prefix or name `p`, if there is just one. -/
def modulePrefix (d : Device) (p : String) : Option String :=
  match d.namespaces.filter (fun n => n.1 = p || n.2.1 = p) with
  | [] => none
  | n :: r => if r.all (fun n' => n'.2.2 = n.2.2) then some n.2.2 else none

theorem modulePrefix_iff {d : Device} {p u : String} : modulePrefix d p = some u ↔ ModulePrefix d p u := by
  unfold modulePrefix ModulePrefix
  have hm : ∀ n, n ∈ d.namespaces.filter (fun n => n.1 = p || n.2.1 = p) ↔
      n ∈ d.namespaces ∧ (n.1 = p ∨ n.2.1 = p) := by
    intro n; simp [List.mem_filter]
  generalize d.namespaces.filter (fun n => n.1 = p || n.2.1 = p) = l at hm
  have h1 : (∃ n ∈ d.namespaces, n.1 = p ∨ n.2.1 = p) ↔ ∃ n, n ∈ l :=
    ⟨fun ⟨n, a, b⟩ => ⟨n, (hm n).2 ⟨a, b⟩⟩, fun ⟨n, a⟩ => ⟨n, ((hm n).1 a).1, ((hm n).1 a).2⟩⟩
  have h2 : (∀ n ∈ d.namespaces, n.1 = p ∨ n.2.1 = p → n.2.2 = u) ↔ ∀ n ∈ l, n.2.2 = u :=
    ⟨fun h n a => h n ((hm n).1 a).1 ((hm n).1 a).2, fun h n a b => h n ((hm n).2 ⟨a, b⟩)⟩
  rw [h1, h2]
  cases l with
  | nil => simp
  | cons n r =>
    simp only
    constructor
    · intro h
      split at h
      · rename_i hr
        cases h
        refine ⟨⟨n, by simp⟩, ?_⟩
        intro x hx
        rcases List.mem_cons.1 hx with rfl | hx
        · rfl
        · simpa using List.all_eq_true.1 hr x hx
      · cases h
    · rintro ⟨_, h⟩
      have hn := h n (by simp)
      rw [if_pos (List.all_eq_true.2 (fun x hx => by simp [h x (by simp [hx]), hn])), hn]

/-- Prefix and namespace of an identityref. -/
def keyNs (d : Device) (own : String) (t : List Char) : Option (Option String × String) :=
  if ':' ∈ t then
    match splitLastColon t with
    | some (p, i) => if ':' ∈ i then none else (modulePrefix d (String.ofList p)).map (fun u => (some (String.ofList p), u))
    | none => none
  else some (none, own)

theorem keyNs_iff {d : Device} {own : String} {t : List Char} {p : Option String} {u : String} :
    keyNs d own t = some (p, u) ↔ KeyNs d own t p u := by
  constructor
  · intro h
    unfold keyNs at h
    split at h
    · cases hs : splitLastColon t with
      | none => simp [hs] at h
      | some x =>
        obtain ⟨a, i⟩ := x
        simp only [hs] at h
        split at h
        · cases h
        · rename_i hi
          cases hm : modulePrefix d (String.ofList a) with
          | none => simp [hm] at h
          | some v =>
            simp only [hm, Option.map_some, Option.some.injEq, Prod.mk.injEq] at h
            obtain ⟨rfl, rfl⟩ := h
            obtain ⟨_, h1, h2, _, h5⟩ := splitLastColon_none_of hs
            rw [h5]
            exact .prefixed h1 h2 hi (modulePrefix_iff.1 hm)
    · rename_i hc
      cases h
      exact .bare hc
  · intro h
    unfold keyNs
    cases h with
    | @prefixed a i _ h1 h2 h3 h4 =>
      rw [if_pos (by simp), splitLastColon_prefixed h1 h2 h3]
      simp only [h3, if_false, modulePrefix_iff.2 h4, Option.map_some]
    | bare h => rw [if_neg h]

/-- Executable `KeyHonest`. -/
def keyHonestB (d : Device) (c : Elem) : Bool :=
  match c.text with
  | none => true
  | some t =>
    match keyNs d c.tag.ns t.toList with
    | none => true
    | some (p, u) => c.nsmap.url p = some u && c.nsmap.all (fun e => !(e.2 = u) || e.1 = p)

theorem keyHonestB_sound {d : Device} {c : Elem} (h : keyHonestB d c = true) : KeyHonest d c := by
  intro t ht p u hn
  unfold keyHonestB at h
  simp only [ht, keyNs_iff.2 hn, Bool.and_eq_true, decide_eq_true_eq, List.all_eq_true, Bool.or_eq_true,
    Bool.not_eq_true', decide_eq_false_iff_not] at h
  refine ⟨h.1, fun q hq => ?_⟩
  rcases h.2 _ hq with h | h
  · exact absurd rfl h
  · exact h

/-- Executable `KeyOk`. -/
def keyOkB (d : Device) (sn : SNode) (c : Elem) : Bool :=
  decide sn.info.datatype.plain || (sn.info.datatype = .identityref && keyHonestB d c &&
    match c.text with
    | none => true
    | some t => (keyNs d c.tag.ns t.toList).isSome)

theorem keyOkB_sound {d : Device} {sn : SNode} {c : Elem} (h : keyOkB d sn c = true) : KeyOk d sn c := by
  unfold keyOkB at h
  rw [Bool.or_eq_true, decide_eq_true_eq, Bool.and_eq_true, Bool.and_eq_true, decide_eq_true_eq] at h
  rcases h with h | ⟨⟨h1, h2⟩, h3⟩
  · exact .inl h
  · refine .inr ⟨h1, keyHonestB_sound h2, ?_⟩
    intro t ht
    rw [ht] at h3
    obtain ⟨⟨p, u⟩, hx⟩ := Option.isSome_iff_exists.1 h3
    exact ⟨p, u, keyNs_iff.1 hx⟩

/-- Executable `NsLevel`. -/
def nsLevelB (d : Device) (sc : Scope) (e : Elem) : Bool :=
  decide (NsMapOk e.nsmap) && e.kids.all (fun k =>
    match d.lookup sc k.tag with
    | .error _ => true
    | .ok f => !(f.node.ntype = .list) || f.node.keys.all (fun q =>
        match d.lookup (.node f.node) q with
        | .error _ => true
        | .ok g => !(g.node.info.datatype = .identityref) || (k.childrenWith q).all (keyHonestB d)))

theorem nsLevelB_sound {d : Device} (sc : Scope) (e : Elem) (h : nsLevelB d sc e = true) : NsLevel d sc e := by
  unfold nsLevelB at h
  rw [Bool.and_eq_true, decide_eq_true_eq, List.all_eq_true] at h
  refine ⟨h.1, ?_⟩
  intro k hk f hf hl q hq g hg hi c hc
  have h1 := h.2 k hk
  simp only [hf, hl, decide_true, Bool.not_true, Bool.false_or, List.all_eq_true] at h1
  have h2 := h1 q hq
  simp only [hg, hi, decide_true, Bool.not_true, Bool.false_or, List.all_eq_true] at h2
  exact keyHonestB_sound (h2 c hc)

end NcDiff
