import Verif.Proof.Identity
/-!
# C38: the values that a compiled schema offers for an identityref

`h` is any history of a `ModelCompiler`: any sequence of compilations, each with any modules in any
order.  `m` is the module of the leaf, `b` the base of its type.
-/

namespace NcDiff.Identity

/-- **C38.**  The values that are offered are the identities that are directly derived from the
base, each in the notation `prefix:name` with the prefix that its module declares, in the order in
which they were seen.  All of them are offered if the base is an identity without base that was
seen first.  Otherwise exactly the first one is missing. -/
theorem C38_values {h : History} (ho : OwnBases h) {m : Stmt} {b : Base} {x : Id}
    (hx : meaning m b = some x) :
    ∃ vs l, values (after h) m b = some vs ∧ List.Forall₂ (Written h) vs l ∧
      (RootFirst x (seen h) → l = derived x (seen h)) ∧
      (¬ RootFirst x (seen h) → l = (derived x (seen h)).tail) := by
  have H := listed_holds ho x
  have hl := listed_eq (after h) m b hx
  generalize hv : (after h).deps (some x.1, x.2) = v at H hl
  have hw : ∀ y ∈ listed (after h) m b, ∃ t ms, (t, ms) ∈ h ∧ ∃ m ∈ ms, m.name = y.1 := by
    intro y hy
    have : y ∈ derived x (seen h) := by
      rw [hl] at hy
      cases H with
      | untouched _ _ => simp at hy
      | full _ h2 => rw [h2]; exact hy
      | short _ h2 => rw [h2]; exact List.mem_cons_of_mem _ hy
    exact mem_seen (mem_derived.mp this)
  obtain ⟨vs, hvs, hf⟩ := written_all _ hw
  refine ⟨vs, _, hvs, hf, ?_⟩
  rw [hl]
  cases H with
  | untouched h1 h2 => exact ⟨fun h => absurd h h2, fun _ => by rw [h1]; rfl⟩
  | full h1 h2 => exact ⟨fun _ => h2.symm, fun h => absurd h1 h⟩
  | short h1 h2 => exact ⟨fun h => absurd h h1, fun _ => by rw [h2]; rfl⟩

/-- **C38.**  So nothing is offered that is not derived from the base, and at most one identity that
is derived from the base is not offered. -/
theorem C38_offered {h : History} (ho : OwnBases h) {m : Stmt} {b : Base} {x : Id}
    (hx : meaning m b = some x) : ∃ vs, values (after h) m b = some vs ∧
      (∀ v ∈ vs, ∃ y ∈ derived x (seen h), Written h v y) ∧
      (derived x (seen h)).length ≤ vs.length + 1 ∧
      ∀ y ∈ (derived x (seen h)).tail, ∃ v ∈ vs, Written h v y := by
  obtain ⟨vs, l, hv, hf, h1, h2⟩ := C38_values ho hx
  have hl : l = derived x (seen h) ∨ l = (derived x (seen h)).tail := by
    by_cases hr : RootFirst x (seen h)
    · exact .inl (h1 hr)
    · exact .inr (h2 hr)
  have hsub : ∀ y ∈ l, y ∈ derived x (seen h) := by
    intro y hy
    rcases hl with rfl | rfl
    · exact hy
    · exact List.mem_of_mem_tail hy
  refine ⟨vs, hv, fun v hm => ?_, ?_, fun y hy => ?_⟩
  · clear h1 h2 hl hv
    induction hf with
    | nil => cases hm
    | cons hab _ ih =>
      rcases List.mem_cons.mp hm with rfl | hm
      · exact ⟨_, hsub _ List.mem_cons_self, hab⟩
      · exact ih (fun y hy => hsub y (List.mem_cons_of_mem _ hy)) hm
  · rw [hf.length_eq]
    rcases hl with rfl | rfl
    · omega
    · rw [List.length_tail]; omega
  · have hyl : y ∈ l := by
      rcases hl with rfl | rfl
      · exact List.mem_of_mem_tail hy
      · exact hy
    clear h1 h2 hl hv hsub hy
    induction hf with
    | nil => cases hyl
    | cons hab _ ih =>
      rcases List.mem_cons.mp hyl with rfl | hyl
      · exact ⟨_, List.mem_cons_self, hab⟩
      · obtain ⟨v, hv, hw⟩ := ih hyl
        exact ⟨v, List.mem_cons_of_mem _ hv, hw⟩

/-- **C38.**  A base with an unknown prefix offers nothing. -/
theorem C38_unknown_prefix (c : Compiler) {m : Stmt} {b : Base} (hx : meaning m b = none) :
    values c m b = some [] := by
  obtain ⟨p, n⟩ := b
  cases p with
  | none => cases hx
  | some p =>
    simp only [meaning, Option.map_eq_none_iff] at hx
    simp [values, listed, hx]

/-! ## Ciphers -/

namespace Demo

/-- A root, two identities derived from it, and two derived from one of these. -/
def crypto : Stmt where
  name := "crypto"
  pfx := "c"
  prefixes := [("c", "crypto")]
  identities := [⟨"alg", none⟩, ⟨"aes", some (none, "alg")⟩, ⟨"des", some (some "c", "alg")⟩,
    ⟨"aes128", some (none, "aes")⟩, ⟨"aes256", some (none, "aes")⟩]

/-- Another module that imports the first. -/
def vendor : Stmt where
  name := "vendor"
  pfx := "v"
  prefixes := [("v", "vendor"), ("cr", "crypto")]
  identities := [⟨"rot13", some (some "cr", "alg")⟩]

/-- Compiling `crypto`. -/
def once : History := [("crypto", [crypto, vendor])]

theorem once_own : OwnBases once := by
  intro t ms h m hm i hi n hb
  simp only [once, List.mem_singleton, Prod.mk.injEq] at h
  obtain ⟨rfl, rfl⟩ := h
  simp only [List.mem_cons, List.not_mem_nil, or_false] at hm
  rcases hm with rfl | rfl
  · rfl
  · simp only [vendor, List.mem_singleton] at hi
    subst hi; simp at hb

/-- The hypotheses are met by an identity without base: everything derived from it is offered. -/
example : meaning vendor (some "cr", "alg") = some ("crypto", "alg") ∧
    RootFirst ("crypto", "alg") (seen once) ∧
    derived ("crypto", "alg") (seen once) =
      [("crypto", "aes"), ("crypto", "des"), ("vendor", "rot13")] ∧
    values (after once) vendor (some "cr", "alg") = some ["c:aes", "c:des", "v:rot13"] :=
  ⟨rfl, ⟨[], _, rfl, rfl⟩, by decide +kernel, by decide +kernel⟩

/-- A derived identity is not seen as a base at first: the first identity that is derived from it is
not offered. -/
theorem C38_first_of_derived_base_lost :
    derived ("crypto", "aes") (seen once) = [("crypto", "aes128"), ("crypto", "aes256")] ∧
    values (after once) crypto (none, "aes") = some ["c:aes256"] :=
  ⟨by decide +kernel, by decide +kernel⟩

/-- Identities that are derived from a derived identity are not offered for the root, although YANG
allows them as values. -/
theorem C38_direct_only : ("crypto", "aes128") ∈ derived ("crypto", "aes") (seen once) ∧
    ("crypto", "aes") ∈ derived ("crypto", "alg") (seen once) ∧
    ∀ vs, values (after once) crypto (none, "alg") = some vs → "c:aes128" ∉ vs := by
  refine ⟨by decide +kernel, by decide +kernel, fun vs hv => ?_⟩
  have : values (after once) crypto (none, "alg") = some ["c:aes", "c:des", "v:rot13"] := by
    decide +kernel
  rw [this] at hv
  cases hv
  decide

/-- Without `OwnBases` C38 fails: when `vendor` is compiled, the bases in `crypto` without prefix
are taken for identities of `vendor`. -/
theorem C38_foreign_base_lost :
    derived ("crypto", "alg") (seen [("vendor", [crypto, vendor])]) =
      [("crypto", "aes"), ("crypto", "des"), ("vendor", "rot13")] ∧
    values (after [("vendor", [crypto, vendor])]) vendor (some "cr", "alg") =
      some ["c:des", "v:rot13"] :=
  ⟨by decide +kernel, by decide +kernel⟩

/-- The values depend on what was compiled before: a second compilation offers everything that it
sees again, also what was missing. -/
theorem C38_depends_on_history :
    values (after (once ++ once)) crypto (none, "aes") =
      some ["c:aes256", "c:aes128", "c:aes256"] := by
  decide +kernel

end Demo

end NcDiff.Identity
