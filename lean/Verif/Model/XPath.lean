import Verif.Model.Tags
/-!
# XPath of a config node

Model of `Composer.get_xpath` (`src/ncdiff/composer.py` lines 169-226), which
`ModelDevice.get_xpath` (`src/ncdiff/manager.py` lines 660-701) calls, for nodes of a config, and of
the prefixes that `Config.xpath` (`src/ncdiff/config.py` lines 304-320) hands to lxml.

Simplifications: a node is given by its position (the indices of the children on the way from the
config root to it); the notation `Tag.YTOOL` and schema nodes are in
`Model/SchemaPath.lean`; the root of the config is
`nc:config`, so `is_config` (`src/ncdiff/composer.py` lines 128-134) is true.
-/

namespace NcDiff

/-- `Element.tag` as a string: `{url}name`, or the name alone if there is no namespace. -/
def QName.clark (q : QName) : List Char :=
  if q.ns = "" then q.name.toList else Style.brace.render q.ns q.name.toList

/-- `'{}'.format(node.text)`, `src/ncdiff/composer.py` lines 206 and 218. -/
def textOf : Option String → List Char
  | none => "None".toList
  | some t => t.toList

/-- `'[{}="{}"]'.format(id, text)`, lines 205-206 and 216-218. -/
def predicate (id : List Char) (text : Option String) : List Char :=
  ['['] ++ id ++ ['=', '"'] ++ textOf text ++ ['"', ']']

/-- The loop over the keys of a list entry, lines 211-218. -/
def keyPredicates (d : Device) (ty : TagNotation) (dflt : String) (node : Elem) :
    List QName → Except Err (List Char)
  | [] => .ok []
  | key :: r => do
    let id ← convertTag d dflt key.clark .lxmlEtree ty
    let rest ← keyPredicates d ty dflt node r
    match node.find key with
    | some c => .ok (predicate id.2 c.text ++ rest)
    | none => .ok rest

/-- The predicates of one node, lines 200-218.  `wanted` is `not (index == len(nodes)-1 and not
instance)`. -/
def predicatesOf (d : Device) (ty : TagNotation) (dflt : String) (wanted : Bool) (sn : SNode)
    (node : Elem) : Except Err (List Char) :=
  if sn.ntype = .leafList ∧ wanted then .ok (predicate "text()".toList node.text)
  else if sn.ntype = .list ∧ wanted then keyPredicates d ty dflt node sn.keys
  else .ok []

/-- `convert`, lines 193-219, for the nodes at and below the positions `pos`. -/
def convertNodes (d : Device) (ty : TagNotation) (inst : Bool) :
    List Nat → Scope → String → Elem → Except Err (List Char)
  | [], _, _, _ => .ok []
  | i :: r, sc, dflt, e =>
    match e.kids[i]? with
    | none => .error .indexError
    | some k => do
      let p ← convertTag d dflt k.tag.clark .lxmlEtree ty
      let f ← d.lookup sc k.tag
      let ps ← predicatesOf d ty p.1 (!(r.isEmpty && !inst)) f.node k
      let rest ← convertNodes d ty inst r (.node f.node) p.1 k
      pure (['/'] ++ p.2 ++ ps ++ rest)

/-- `get_xpath(node, type=ty, instance=inst)`, lines 221-226, of the node at position `pos` of the
config `cfg`.  The root of the config has no ancestors, for which `is_config` fails with an
IndexError (line 130); if the conversion of its tag (line 202) fails before, the exception is another
one, which is not distinguished here. -/
def getXpath (d : Device) (ty : TagNotation) (inst : Bool) (cfg : Elem) (pos : List Nat) :
    Except Err (List Char) :=
  if pos = [] then .error .indexError else convertNodes d ty inst pos .root "" cfg

/-- `{i[1]: i[2] for i in self.device.namespaces if i[1] is not None}`,
`src/ncdiff/config.py` lines 317-319. -/
def xpathNamespaces (d : Device) : List (String × String) :=
  dictOf (d.namespaces.map fun e => (e.2.1, e.2.2))

end NcDiff
