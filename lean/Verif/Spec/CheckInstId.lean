import Verif.Spec.InstId
/-!
# Executable checks of instance-identifiers

Only used to show that concrete values meet the hypotheses of the theorems.
-/

namespace NcDiff.InstId

/-- Read a name. -/
def readName (s : List Char) : Name :=
  match s.span (fun c => c ≠ ':') with
  | (p, ':' :: r) => ⟨some p, r⟩
  | _ => ⟨none, s⟩

/-- Read an instance-identifier; `fuel` is the number of parts. -/
def readToks : (fuel : Nat) → List Char → List Tok
  | 0, _ => []
  | fuel + 1, '/' :: s =>
    .step (readName (s.takeWhile (fun c => c ≠ '/' && c ≠ '['))) ::
      readToks fuel (s.dropWhile (fun c => c ≠ '/' && c ≠ '['))
  | fuel + 1, '[' :: s =>
    match s.dropWhile (fun c => c ≠ '=') with
    | '=' :: q :: r =>
      let n := s.takeWhile (fun c => c ≠ '=')
      let c := r.takeWhile (fun c => c ≠ q)
      (if n = ['.'] then .self q c else .key (readName n) q c) ::
        readToks fuel ((r.dropWhile (fun c => c ≠ q)).drop 2)
    | _ => []
  | _, _ => []

instance (n : Name) : Decidable n.Ok := by
  unfold Name.Ok
  have : Decidable (∀ p, n.pfx = some p → p ≠ [] ∧ ∀ c ∈ p, c ∉ reserved) :=
    match h : n.pfx with
    | none => .isTrue (fun p hp => by cases hp)
    | some p =>
      if hp : p ≠ [] ∧ ∀ c ∈ p, c ∉ reserved then .isTrue (fun q hq => by cases hq; exact hp)
      else .isFalse (fun hh => hp (hh p rfl))
  infer_instance

instance (q : Char) (c : List Char) : Decidable (LitOk q c) := by unfold LitOk; infer_instance

instance (t : Tok) : Decidable t.Ok := by
  cases t <;> unfold Tok.Ok <;> infer_instance

instance (ts : List Tok) : Decidable (NoApostrophe ts) := by
  unfold NoApostrophe
  have : ∀ t : Tok, Decidable (match t with
    | .step _ => True
    | .key _ q c => q = '"' → '\'' ∉ c
    | .self q c => q = '"' → '\'' ∉ c) := by
    intro t; cases t <;> simp only <;> infer_instance
  infer_instance

instance (s : List Char) (ts : List Tok) : Decidable (Readable s ts) := by
  unfold Readable; infer_instance

/-- The text read. -/
def read (s : List Char) : List Tok := readToks s.length s

end NcDiff.InstId
