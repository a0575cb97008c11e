import Verif.Model.XPath
/-!
# Searching in replies and configs

Model of `xpath` of replies and notifications (`src/ncdiff/__init__.py` lines 65-78), of `Config.xpath` (`src/ncdiff/config.py` lines
304-320), and of the tables of prefixes that `ns` and `ns_help` show (`src/ncdiff/config.py` lines 182-184 and 290-302,
`src/ncdiff/manager.py` lines 436-440 and 473-477, `src/ncdiff/__init__.py` lines 81-82).

The XPath engine of lxml is a parameter, which returns positions in the document.  Not modelled: expressions whose value is no list of
nodes, and other arguments of lxml's method.
-/

namespace NcDiff.Find

/-- `root.xpath(x, namespaces=table)` of lxml. -/
abbrev Engine := Elem → List (String × String) → List Char → Except Err (List (List Nat))

/-- What the caller gets from `execute` or `take_notification`: the document, and attribute `ns`. -/
structure Reply where
  root : Elem
  ns : List (String × String)

/-- `reply.ns = self._get_ns(reply._root)`, `src/ncdiff/manager.py` lines 436-440 and 473-477.  `urls` is the set of the URLs of the document, in
the order in which Python iterates over it. -/
def received (d : Device) (urls : List String) (root : Elem) : Reply := ⟨root, getNs d urls⟩

/-- `xpath_rpcreply` and `xpath_notification`, `src/ncdiff/__init__.py` lines 65-78. -/
def Reply.xpath (xp : Engine) (r : Reply) (x : List Char) (namespaces : Option (List (String × String))) : Except Err (List (List Nat)) :=
  match namespaces with
  | none => xp r.root r.ns x
  | some t => xp r.root t x

/-- `Config.xpath`, `src/ncdiff/config.py` lines 304-320. -/
def configXpath (xp : Engine) (d : Device) (ele : Elem) (x : List Char) (namespaces : Option (List (String × String))) :
    Except Err (List (List Nat)) :=
  match namespaces with
  | none => xp ele (xpathNamespaces d) x
  | some t => xp ele t x

/-- `Config.ns`, which `ns_help` prints, `src/ncdiff/config.py` lines 182-184 and 290-302. -/
def configNs (d : Device) (urls : List String) : List (String × String) := getNs d urls

end NcDiff.Find
