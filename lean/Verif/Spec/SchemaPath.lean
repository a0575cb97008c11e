import Verif.Spec.Statement
import Verif.Spec.Position
import Verif.Model.SchemaPath
/-!
# Specification: how the path of a schema node is read
-/

namespace NcDiff.Statement

/-- The pieces of a text between the slashes that are not in braces; `inside` tells whether the text starts in braces. -/
def pieces : Bool → List Char → List (List Char)
  | _, [] => [[]]
  | inside, c :: r =>
    if c = '/' ∧ inside = false then [] :: pieces false r
    else
      match pieces (c = '{' || (inside && c ≠ '}')) r with
      | p :: ps => (c :: p) :: ps
      | [] => [[c]]

/-- The tag that a piece stands for, below a node of the namespace `inForce`: `{url}name`, or a name with the prefix or the
name of a module. -/
def readTag (d : Device) (ty : TagNotation) (inForce : String) (p : List Char) : Option QName :=
  match ty.style with
  | .colon => (readerOf d ty).tag inForce p
  | .brace =>
    match p with
    | '{' :: r =>
      match r.dropWhile (· ≠ '}') with
      | _ :: n => some ⟨String.ofList (r.takeWhile (· ≠ '}')), String.ofList n⟩
      | [] => none
    | _ => none

/-- The tags that pieces stand for. -/
def readTags (d : Device) (ty : TagNotation) : String → List (List Char) → Option (List QName)
  | _, [] => some []
  | inForce, p :: r =>
    match readTag d ty inForce p with
    | none => none
    | some q => (readTags d ty q.ns r).map (q :: ·)

/-- The path of tags that a text stands for.  In the notation of YTool the text begins with the name of a model, whose
namespace is in force at the beginning; in the other notations it begins with a slash. -/
def readPath (d : Device) (urls : List (String × String)) (ty : TagNotation) (t : List Char) : Option (List QName) :=
  match pieces false t with
  | [] => none
  | p :: r =>
    if ty = .ytool then
      match urls.lookup (String.ofList p) with
      | none => none
      | some u => readTags d ty u r
    else if p = [] then readTags d ty "" r
    else none

/-- The six notations of class `Tag`. -/
def Standard (ty : TagNotation) : Prop :=
  ty = .ytool ∨ ty = .xpath ∨ ty = .lxmlXpath ∨ ty = .lxmlEtree ∨ ty = .jsonName ∨ ty = .jsonPrefix

/-- The pieces spell the tags: each is what the notation writes for the tag when the module of the tag before it is in
force. -/
inductive Spelled (d : Device) (ty : TagNotation) : Option Entry → List QName → List (List Char) → Prop
  | nil {dflt} : Spelled d ty dflt [] []
  | cons {dflt m q r ts} : m ∈ d.namespaces → m.2.2 = q.ns → Spelled d ty (some m) r ts →
      Spelled d ty dflt (q :: r) (written ty dflt m q.name.toList :: ts)

/-- The models are modules that the device knows, with their URLs; URLs have no closing brace. -/
structure ModelUrls (d : Device) (urls : List (String × String)) : Prop where
  known : ∀ m u, urls.lookup m = some u → ∃ e ∈ d.namespaces, e.1 = m ∧ e.2.2 = u
  braces : ∀ e ∈ d.namespaces, '}' ∉ e.2.2.toList

/-- Siblings have different tags, everywhere in the tree. -/
def DistinctTags (t : Elem) : Prop := ∀ p x, t.at? p = some x → (x.kids.map Elem.tag).Nodup

/-- The schema node of the config node at a position. -/
inductive SchemaOf (d : Device) : Scope → Elem → List Nat → SNode → Prop
  | last {sc e i k f} : e.kids[i]? = some k → d.lookup sc k.tag = .ok f → SchemaOf d sc e [i] f.node
  | more {sc e i k f r s} : e.kids[i]? = some k → d.lookup sc k.tag = .ok f → SchemaOf d (.node f.node) k r s →
      SchemaOf d sc e (i :: r) s

/-- The nodes on the way to a node of a schema tree. -/
inductive Way : List SNode → List SNode → Prop
  | one {ks s} : s ∈ ks → Way ks [s]
  | more {ks s w} : s ∈ ks → Way s.kids w → Way ks (s :: w)

/-- The node is neither a choice nor a case. -/
def isData (s : SNode) : Bool := s.ntype ≠ .choice ∧ s.ntype ≠ .case

end NcDiff.Statement
