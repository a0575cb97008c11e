import Verif.Spec.Cases
/-!
# The same nodes in another order

For edit-configs whose siblings are processed in any order.
-/

namespace NcDiff.Compile

/-- The same nodes: siblings may change places, at any depth, and nothing else is different. -/
inductive SameNodes : List Elem → List Elem → Prop
  | nil : SameNodes [] []
  | cons {x y : Elem} {r r' : List Elem} (tag : x.tag = y.tag) (nsmap : x.nsmap = y.nsmap) (attrs : x.attrs = y.attrs)
      (text : x.text = y.text) (kids : SameNodes x.kids y.kids) (rest : SameNodes r r') : SameNodes (x :: r) (y :: r')
  | swap (x y : Elem) (r : List Elem) : SameNodes (x :: y :: r) (y :: x :: r)
  | trans {a b c : List Elem} (h1 : SameNodes a b) (h2 : SameNodes b c) : SameNodes a c

/-- The order of entries is never that of the user. -/
def FreeOrder (s : Stmt) : Prop := ¬ s.info.Says "ordered-by" "user"

end NcDiff.Compile
