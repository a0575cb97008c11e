import Verif.Model.Tags
/-!
# Specification: what the notations of a tag mean

A notation writes a node name together with the module it belongs to: `ns:name` or `{ns}name`,
where `ns` is the module's name, prefix or URL.  Two of the three kinds of notation leave `ns`
out when the module is the one in force (the default).
-/

namespace NcDiff

/-- The namespaces a device knows are unique: no two modules share a name, a prefix or a URL,
none of these is empty, and a module that has the prefix or the URL of one of the four well-known
namespaces (`specialEntries`) has both. -/
structure UniqueNamespaces (d : Device) : Prop where
  unique : ∀ f, (d.namespaces.map (nsPart f)).Nodup
  nonempty : ∀ e ∈ d.namespaces, ∀ f, nsPart f e ≠ ""
  special : ∀ e ∈ d.namespaces, ∀ s ∈ specialEntries,
    (e.2.1 = s.2.1 ∨ e.2.2 = s.2.2) → (e.2.1 = s.2.1 ∧ e.2.2 = s.2.2)

/-- A module that can be written both by name, prefix or URL `f` and by `g`: one of the device,
or a well-known namespace that is none of the device's modules (it has no module name). -/
def Namable (d : Device) (f g : NsField) (e : Entry) : Prop :=
  e ∈ d.namespaces ∨
    (e ∈ specialEntries ∧ f ≠ .name ∧ g ≠ .name ∧ ∀ x ∈ d.namespaces, x.2.2 ≠ e.2.2)

/-- A node name: not empty, and without the two characters that end the namespace part. -/
def NodeName (n : List Char) : Prop := n ≠ [] ∧ ':' ∉ n ∧ '}' ∉ n ∧ '{' ∉ n

/-- The namespace in force as the notation writes it; the empty string if there is none. -/
def writtenNs (f : NsField) : Option Entry → String
  | none => ""
  | some e => nsPart f e

/-- How a notation writes the node `name` of module `m` when `dflt` is in force. -/
def written (n : TagNotation) (dflt : Option Entry) (m : Entry) (name : List Char) :
    List Char :=
  if n.omission ≠ .never ∧ dflt = some m then name
  else
    match n.style with
    | .colon => (nsPart n.field m).toList ++ [':'] ++ name
    | .brace => ['{'] ++ (nsPart n.field m).toList ++ ['}'] ++ name

/-! ## Prefix tables -/

/-- The URL is declared as a namespace at some node of the tree. -/
inductive Declared (u : String) : Elem → Prop where
  | here {e : Elem} {p : Option String} : (p, u) ∈ e.nsmap → Declared u e
  | inner {e k : Elem} : k ∈ e.kids → Declared u k → Declared u e

/-- The node occurs in the tree. -/
inductive NodeOf (x : Elem) : Elem → Prop where
  | self : NodeOf x x
  | inner {e k : Elem} : k ∈ e.kids → NodeOf x k → NodeOf x e

/-- The prefixes in use are unambiguous on the device: modules with different URLs have different
prefixes, none has the prefix of a well-known namespace with another URL, and none has a prefix
of the form `ns` + decimal digits, which `_get_ns` invents for unknown URLs. -/
structure DistinctPrefixes (d : Device) : Prop where
  modules : ∀ a ∈ d.namespaces, ∀ b ∈ d.namespaces, a.2.1 = b.2.1 → a.2.2 = b.2.2
  special : ∀ a ∈ d.namespaces, ∀ s ∈ specialUrls, a.2.1 = s.2 → a.2.2 = s.1
  invented : ∀ a ∈ d.namespaces, ∀ ds : List Char, (∀ c ∈ ds, c.isDigit) →
    a.2.1.toList ≠ 'n' :: 's' :: ds

end NcDiff
