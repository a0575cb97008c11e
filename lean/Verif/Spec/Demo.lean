import Verif.Model.NodeSub
/-!
# A concrete device

Used by the examples that show that hypotheses of theorems can be met, and by counterexamples.
The YANG source would be

```
container top {
  leaf a; leaf b { default "0"; }
  list item { key name; leaf name; leaf val; }
  list rule { key id; ordered-by user; leaf id; leaf act; }
  leaf-list dns { ordered-by user; }  leaf-list tagl;
  container pc { presence ""; leaf z; }  container np { leaf w; }
  choice ch { case c1 { leaf x; } case c2 { leaf y; } }
  list dk { key k; leaf k { default "0"; } leaf v; }
}
```
-/

namespace NcDiff.Demo

/-- The namespace of the demo model. -/
def u : String := "urn:demo"
def q (n : String) : QName := ⟨u, n⟩

def leafS (n : String) (isKey := false) (dflt : Option String := none) : SNode :=
  .mk { tag := q n, ntype := .leaf, isKey := isKey, dflt := dflt } []

def topS : SNode :=
  .mk { tag := q "top", ntype := .container }
    [ leafS "a",
      leafS "b" (dflt := some "0"),
      .mk { tag := q "item", ntype := .list, keyNames := ["name"] }
        [leafS "name" (isKey := true), leafS "val"],
      .mk { tag := q "rule", ntype := .list, keyNames := ["id"], userOrdered := true }
        [leafS "id" (isKey := true), leafS "act"],
      .mk { tag := q "dns", ntype := .leafList, userOrdered := true } [],
      .mk { tag := q "tagl", ntype := .leafList } [],
      .mk { tag := q "pc", ntype := .container, presence := true } [leafS "z"],
      .mk { tag := q "np", ntype := .container } [leafS "w"],
      .mk { tag := q "ch", ntype := .choice }
        [ .mk { tag := q "c1", ntype := .case } [leafS "x"],
          .mk { tag := q "c2", ntype := .case } [leafS "y"] ],
      .mk { tag := q "dk", ntype := .list, keyNames := ["k"] }
        [leafS "k" (isKey := true) (dflt := some "0"), leafS "v"] ]

def dev : Device :=
  { namespaces := [("demo", "d", u)], roots := [(q "top", "demo")], models := [("demo", [topS])] }

/-- `<config>` root. -/
def cfgTag : QName := ⟨"urn:ietf:params:xml:ns:netconf:base:1.0", "config"⟩
def ns : NsMap := [(none, u), (some "nc", "urn:ietf:params:xml:ns:netconf:base:1.0")]

def el (n : String) (ks : List Elem) : Elem := .mk (q n) ns [] none ks
def lf (n v : String) : Elem := .mk (q n) ns [] (some v) []
def cfg (ks : List Elem) : Elem := .mk cfgTag [(some "nc", "urn:ietf:params:xml:ns:netconf:base:1.0")] [] none ks
def item (n v : String) : Elem := el "item" [lf "name" n, lf "val" v]
def rule (n v : String) : Elem := el "rule" [lf "id" n, lf "act" v]

end NcDiff.Demo
