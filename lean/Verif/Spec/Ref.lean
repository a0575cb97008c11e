import Verif.Spec.Delta
/-!
# Specification: what identityref and instance-identifier values mean

RFC 7950 sections 9.10.3 and 9.13.2, RFC 7951 sections 6.8 and 6.11.
-/

namespace NcDiff

/-- The identityref value `s`, written where the prefixes `m` are declared, stands for the
identity `i` of the namespace `u`. -/
inductive DenotesId (d : Device) (m : NsMap) : List Char → String → List Char → Prop where
  | prefixed {p i u} : p ≠ [] → i ≠ [] → ':' ∉ i → PrefixMeans d m p u →
      DenotesId d m (p ++ ':' :: i) u i
  | plain {i u} : i ≠ [] → ':' ∉ i → (none, u) ∈ m → DenotesId d m i u i

/-- The module table as the device has it: names are different and not empty. -/
def NamesOk (d : Device) : Prop :=
  (d.namespaces.map (fun n => n.1)).Nodup ∧ ∀ n ∈ d.namespaces, n.1 ≠ ""

instance (d : Device) : Decidable (NamesOk d) := by unfold NamesOk; infer_instance

/-- Two nodes at the same schema position have the same value: identities are the same, whatever
prefixes they are written with; values of other types have the same text (and the same prefixes in
force, unless the type is plain). -/
inductive SameValue (d : Device) (sc : Scope) (a b : Elem) : Prop where
  | text : a.text = b.text →
      (a.nsmap = b.nsmap ∨ a.text = none ∨ ∀ sn, sc = .node sn → sn.info.datatype.plain) →
      SameValue d sc a b
  | identity {sn s t u i} : sc = .node sn → sn.info.datatype = .identityref →
      a.text = some s → b.text = some t →
      DenotesId d a.nsmap s.toList u i → DenotesId d b.nsmap t.toList u i → SameValue d sc a b

/-- `b` is `a` with other prefixes: tags, attributes and the shape are the same, and values are
the same. -/
inductive Respelled (d : Device) : Scope → Elem → Elem → Prop where
  | mk {sc : Scope} {a b : Elem}
      (tag : a.tag = b.tag)
      (attrs : a.attrs = b.attrs)
      (value : SameValue d sc a b)
      (tags : a.kids.map Elem.tag = b.kids.map Elem.tag)
      (sub : ∀ (i : Nat) x y f, a.kids[i]? = some x → b.kids[i]? = some y →
        d.lookup sc x.tag = .ok f → Respelled d (.node f.node) x y) :
      Respelled d sc a b

end NcDiff
