import Verif.Spec.Server
/-!
# A NETCONF server with choices

RFC 7950, section 7.9: the nodes of at most one case of a choice exist at a time, and the creation of a node of one case
removes all nodes of the other cases.  Which nodes these are is read from the statements of the modules.
-/

namespace NcDiff.Compile

/-- A node with the tag is among the nodes of the statement, which may be a case. -/
def offers (ns : List (String × String)) (q : QName) (s : Stmt) : Bool :=
  (visibleOne s).any fun t => nameOf ns t = some q

/-- The nodes are of different statements of a list. -/
def parted (ns : List (String × String)) (q q' : QName) : List Stmt → Bool
  | [] => false
  | c :: r => (offers ns q c && r.any (offers ns q')) || (offers ns q' c && r.any (offers ns q)) || parted ns q q' r

mutual
/-- The nodes with these tags are of different cases of a choice, at whatever depth of choices and cases. -/
def excludes (ns : List (String × String)) (q q' : QName) : List Stmt → Bool
  | [] => false
  | s :: r => excludesOne ns q q' s || excludes ns q q' r
/-- See `excludes`. -/
def excludesOne (ns : List (String × String)) (q q' : QName) : Stmt → Bool
  | .mk i ks =>
    if i.keyword = "choice" then parted ns q q' ks || excludes ns q q' ks
    else if i.keyword = "case" then excludes ns q q' ks
    else false
end

/-- Two children of a node at a place are of different cases of a choice. -/
def rivals (p : Place) (q q' : QName) : Bool := excludes p.1 q q' p.2.kids

/-- The node of an edit-config deletes. -/
def deletes (o : Elem) : Bool := operation o = "delete" ∨ operation o = "remove"

/-- What is left of the siblings `l` when the node `o` is processed. -/
def others (ex : QName → QName → Bool) (o : Elem) (l : List Elem) : List Elem :=
  if deletes o then l else l.filter fun y => !ex o.tag y.tag

mutual
/-- A server like `serve`, which also removes the nodes of other cases when it processes a node.  `ex` tells which tags
exclude each other. -/
def serveCases (pl : List Place) (ex : QName → QName → Bool) : List Elem → List Elem → Option (List Elem)
  | [], l => some l
  | o :: r, l =>
    match serveCase pl ex o l with
    | none => none
    | some l' => serveCases pl ex r l'
/-- See `serveCases`. -/
def serveCase (pl : List Place) (ex : QName → QName → Bool) : Elem → List Elem → Option (List Elem)
  | .mk t n a x ks, l =>
    match placeOf pl t with
    | none => none
    | some p => change p (.mk t n a x ks) (fun l' => serveCases (places p.1 p.2.kids) (rivals p) ks l')
        (others ex (.mk t n a x ks) l)
end

/-- There are no choices at the top of a module. -/
def noRivals : QName → QName → Bool := fun _ _ => false

/-- The nodes of at most one case of a choice exist, at any depth. -/
inductive SingleCase : (QName → QName → Bool) → List Place → Elem → Prop
  | mk {ex : QName → QName → Bool} {pl : List Place} {e : Elem}
      (here : ∀ a ∈ e.kids, ∀ b ∈ e.kids, ex a.tag b.tag = false)
      (sub : ∀ k ∈ e.kids, ∀ p ∈ pl, Named p.1 k.tag p.2 → SingleCase (rivals p) (places p.1 p.2.kids) k) :
      SingleCase ex pl e

/-- What is asked of the choices of a module. -/
structure PlainChoice (s : Stmt) : Prop where
  /-- RFC 7950, section 7.9.2: if the case statement is left out, one is assumed; pyang adds it -/
  cases : s.info.keyword = "choice" → ∀ c ∈ s.kids, c.info.keyword = "case"
  /-- there are no other cases -/
  only : s.info.keyword ≠ "choice" → ∀ c ∈ s.kids, c.info.keyword ≠ "case"
  /-- not in RFC 7950: there is no choice directly in a case -/
  flat : s.info.keyword = "case" → ∀ c ∈ s.kids, c.info.keyword ≠ "choice"

end NcDiff.Compile
