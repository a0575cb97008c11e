import Verif.Model.Send
/-!
# Specification: what is sent to a device
-/

namespace NcDiff.Send

/-- `Copy a b`: `b` is `a` with other prefixes in scope: at every position the same tag, the same
attributes, the same text, as many children; and every prefix that is declared in `a` means the same
in `b`. -/
inductive Copy : Elem → Elem → Prop
  | mk {t n n' a x ks ks'} : (∀ p u, n.lookup p = some u → n'.lookup p = some u) →
      ks.length = ks'.length → (∀ (i : Nat) k k', ks[i]? = some k → ks'[i]? = some k' → Copy k k') →
      Copy (.mk t n a x ks) (.mk t n' a x ks')

/-- The config that is to be sent: the argument is a `Config` by position, or an element. -/
inductive Content (c : Call) : Elem → Prop
  | config {e} : c.config = some (.config e) → c.kwConfig = none → Content c e
  | element {e} : c.config = some (.elem e) → c.kwConfig = none → Content c e
  | keyword {e} : c.config = none → c.kwConfig = some (.elem e) → Content c e

/-- The element is a config. -/
def IsConfig (e : Elem) : Prop := e.tag = ⟨"", "config"⟩ ∨ e.tag = ⟨"urn:ietf:params:xml:ns:netconf:base:1.0", "config"⟩

/-- The datastore that an edit-config is for: the one that was asked for; otherwise the running one if
it can be written and there is no candidate, and the candidate if not. -/
def datastore (candidate writable : Bool) (asked : Option String) : String :=
  match asked with
  | some t => t
  | none => if !candidate && writable then "running" else "candidate"

/-- The target may be given once: by position or by keyword.  By position it may only be given to a device
for which no default is filled in. -/
def TargetOnce (has : String → Bool) (c : Call) : Prop :=
  c.target = none ∨ (c.kwTarget = none ∧ (has "urn:ietf:params:netconf:capability:candidate:1.0" = true ∨
    has "urn:ietf:params:netconf:capability:writable-running:1.0" = false))

/-- The device has the capabilities that the call requires. -/
def Capable (has : String → Bool) (c : Call) (target : String) : Prop :=
  ("://".toList <:+: target.toList → has ":url" = true) ∧
  (c.errorOption = some "rollback-on-error" → has ":rollback-on-error" = true) ∧
  (c.testOption ≠ none → has ":validate" = true)

end NcDiff.Send
