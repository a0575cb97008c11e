import Verif.Spec.Types
import Verif.Proof.CompileTree
/-!
# Lemmas on the values of types
-/

namespace NcDiff.Types
open Compile

theorem joinWith_toList {s : String} : ∀ {l : List String}, l ≠ [] → (joinWith "|" (s :: l)).toList = s.toList ++ '|' :: (joinWith "|" l).toList
  | [], h => absurd rfl h
  | x :: r, _ => by
    rw [joinWith]
    · simp
    · simp

theorem split_join : ∀ {l : List String}, l ≠ [] → (∀ v ∈ l, '|' ∉ v.toList) →
    splitOn '|' (joinWith "|" l).toList = l.map String.toList
  | [], h, _ => absurd rfl h
  | [s], _, h => by
    rw [joinWith, splitOn_plain (h s (.head _))]
    rfl
  | s :: x :: r, _, h => by
    rw [joinWith_toList (by simp), splitOn_append (h s (.head _)),
      split_join (l := x :: r) (by simp) fun v hv => h v (.tail _ hv)]
    rfl

theorem join_append : ∀ {a b : List String}, a ≠ [] → b ≠ [] →
    joinWith "|" (a ++ b) = joinWith "|" a ++ "|" ++ joinWith "|" b
  | [], _, h, _ => absurd rfl h
  | [s], b, _, hb => by
    cases b with
    | nil => exact absurd rfl hb
    | cons y r => rfl
  | s :: x :: r, b, _, hb => by
    have ih := join_append (a := x :: r) (b := b) (by simp) hb
    show s ++ "|" ++ joinWith "|" ((x :: r) ++ b) = s ++ "|" ++ joinWith "|" (x :: r) ++ "|" ++ joinWith "|" b
    rw [ih]
    simp only [String.append_assoc]

theorem join_empty {l : List String} (h : ∀ v ∈ l, v ≠ "") : joinWith "|" l = "" ↔ l = [] := by
  constructor
  · intro e
    cases l with
    | nil => rfl
    | cons s r =>
      exfalso
      cases r with
      | nil => exact h s (.head _) e
      | cons x r =>
        have := congrArg String.toList e
        rw [joinWith_toList (by simp)] at this
        simp at this
  · rintro rfl
    rfl

/-- The text `s` is the list `l` in the form of attribute `values`. -/
def Lists (s : String) (l : List String) : Prop := s = joinWith "|" l ∧ ∀ v ∈ l, v ≠ ""

theorem lists_union : ∀ {ss : List (String × List String)}, (∀ p ∈ ss, Lists p.1 p.2) →
    Lists (joinWith "|" ((ss.map Prod.fst).filter (· ≠ ""))) (ss.flatMap Prod.snd)
  | [], _ => ⟨rfl, by simp⟩
  | (s, l) :: r, h => by
    have ih := lists_union (ss := r) fun p hp => h p (.tail _ hp)
    obtain ⟨e, hl⟩ := h (s, l) (.head _)
    simp only at e hl
    refine ⟨?_, ?_⟩
    · rw [List.map_cons, List.flatMap_cons]
      by_cases hs : s = ""
      · rw [List.filter_cons_of_neg (by simpa using hs)]
        have : l = [] := (join_empty hl).1 (e ▸ hs)
        rw [this]
        exact ih.1
      · rw [List.filter_cons_of_pos (by simpa using hs)]
        have hln : l ≠ [] := fun c => hs (by rw [e, c]; rfl)
        have hall : ∀ v ∈ (r.map Prod.fst).filter (· ≠ ""), v ≠ "" := by
          intro v hv
          simpa using (List.mem_filter.1 hv).2
        by_cases hr : r.flatMap Prod.snd = []
        · have : (r.map Prod.fst).filter (· ≠ "") = [] := by
            rw [← join_empty hall, ih.1, hr]
            rfl
          rw [this, hr, List.append_nil]
          exact e
        · have hn : (r.map Prod.fst).filter (· ≠ "") ≠ [] := by
            intro c
            apply hr
            rw [← join_empty ih.2, ← ih.1, c]
            rfl
          rw [join_append hln hr, ← ih.1, ← e]
          rw [show s :: (r.map Prod.fst).filter (· ≠ "") = [s] ++ (r.map Prod.fst).filter (· ≠ "") from rfl,
            join_append (by simp) hn]
          rfl
    · intro v hv
      rw [List.flatMap_cons] at hv
      rcases List.mem_append.1 hv with hv | hv
      · exact hl v hv
      · exact ih.2 v hv

theorem typeValues_renames {known i td ms t} (h : Renames i td t) :
    typeValues known (.mk i td ms) = typeValues known t := by
  rw [h.1, typeValues, if_pos h.2]

theorem typeValues_own {known i td ms} (h : ∀ t, ¬ Renames i td t) :
    typeValues known (.mk i td ms) = ownValues known i (unionValues known ms) := by
  cases td with
  | none => rw [typeValues]
  | some t => rw [typeValues, if_neg fun c => h t ⟨rfl, c⟩]

theorem renames_or (i : TInfo) (td : Option TypeS) : (∃ t, Renames i td t) ∨ ∀ t, ¬ Renames i td t := by
  by_cases h : ∃ t, Renames i td t
  · exact .inl h
  · exact .inr fun t ht => h ⟨t, ht⟩

theorem unique {i td t t'} (h : Renames i td t) (h' : Renames i td t') : t = t' :=
  Option.some.inj (h.1.symm.trans h'.1)

theorem offers_renames {known i td ms t v} (h : Renames i td t) : Offers known (.mk i td ms) v ↔ Offers known t v := by
  constructor
  · intro o
    cases o with
    | typedef h' o => exact unique h' h ▸ o
    | boolean n => exact absurd h (n t)
    | enum n => exact absurd h (n t)
    | member n => exact absurd h (n t)
    | identity n => exact absurd h (n t)
  · exact .typedef h

theorem own_lists {known i td ms s} (h : ownValues known i (unionValues known ms) = .ok s)
    (hn : ∀ t, ¬ Renames i td t) (hp : ∀ v, Offers known (.mk i td ms) v → v ≠ "")
    (hu : ∀ vs, unionValues known ms = .ok vs → (∀ m ∈ ms, ∀ v, Offers known m v → v ≠ "") →
      ∃ ss : List (String × List String), (∀ p ∈ ss, Lists p.1 p.2) ∧ vs = (ss.map Prod.fst).filter (· ≠ "") ∧
      ∀ v, v ∈ ss.flatMap Prod.snd ↔ ∃ m ∈ ms, Offers known m v) :
    ∃ l, Lists s l ∧ ∀ v, v ∈ l ↔ Offers known (.mk i td ms) v := by
  by_cases h1 : i.arg = "boolean"
  · rw [ownValues, if_pos h1] at h
    cases h
    refine ⟨["true", "false"], ⟨by decide, by decide⟩, fun v => ⟨.boolean hn h1, fun o => ?_⟩⟩
    cases o with
    | typedef r => exact absurd r (hn _)
    | boolean _ _ hv => exact hv
    | enum _ e => exact absurd (h1.symm.trans e) (by decide)
    | member _ e => exact absurd (h1.symm.trans e) (by decide)
    | identity _ e => exact absurd (h1.symm.trans e) (by decide)
  rw [ownValues, if_neg h1] at h
  by_cases h2 : i.arg = "union"
  · rw [if_pos h2] at h
    cases hu' : unionValues known ms with
    | error e => rw [hu'] at h; cases h
    | ok vs =>
      rw [hu'] at h
      cases h
      obtain ⟨ss, s1, s2, s3⟩ := hu vs hu' fun m hm v hv => hp v (.member hn h2 hm hv)
      refine ⟨ss.flatMap Prod.snd, s2 ▸ lists_union s1, fun v => (s3 v).trans ⟨?_, fun o => ?_⟩⟩
      · rintro ⟨m, hm, hv⟩
        exact .member hn h2 hm hv
      cases o with
      | typedef r => exact absurd r (hn _)
      | boolean _ e => exact absurd e h1
      | enum _ e => exact absurd (h2.symm.trans e) (by decide)
      | member _ _ hm hv => exact ⟨_, hm, hv⟩
      | identity _ e => exact absurd (h2.symm.trans e) (by decide)
  rw [if_neg h2] at h
  by_cases h3 : i.arg = "enumeration"
  · rw [if_pos h3] at h
    cases h
    refine ⟨i.enums, ⟨rfl, fun v hv => hp v (.enum hn h3 hv)⟩, fun v => ⟨.enum hn h3, fun o => ?_⟩⟩
    cases o with
    | typedef r => exact absurd r (hn _)
    | boolean _ e => exact absurd e h1
    | enum _ _ hv => exact hv
    | member _ e => exact absurd e h2
    | identity _ e => exact absurd (h3.symm.trans e) (by decide)
  rw [if_neg h3] at h
  by_cases h4 : i.arg = "identityref"
  · rw [if_pos h4] at h
    cases hb : i.base with
    | none =>
      rw [hb] at h
      cases h
      refine ⟨[], ⟨rfl, by simp⟩, fun v => ⟨by simp, fun o => ?_⟩⟩
      cases o with
      | typedef r => exact absurd r (hn _)
      | boolean _ e => exact absurd e h1
      | enum _ e => exact absurd e h3
      | member _ e => exact absurd e h2
      | identity _ _ e => rw [hb] at e; cases e
    | some b =>
      rw [hb] at h
      simp only at h
      cases hk : known i.module b with
      | error e => rw [hk] at h; cases h
      | ok l =>
        rw [hk] at h
        cases h
        refine ⟨l, ⟨rfl, fun v hv => hp v (.identity hn h4 hb hk hv)⟩, fun v => ⟨.identity hn h4 hb hk, fun o => ?_⟩⟩
        cases o with
        | typedef r => exact absurd r (hn _)
        | boolean _ e => exact absurd e h1
        | enum _ e => exact absurd e h3
        | member _ e => exact absurd e h2
        | identity _ _ e k hv =>
          rw [hb] at e
          cases e
          rw [hk] at k
          cases k
          exact hv
  rw [if_neg h4] at h
  cases h
  refine ⟨[], ⟨rfl, by simp⟩, fun v => ⟨by simp, fun o => ?_⟩⟩
  cases o with
  | typedef r => exact absurd r (hn _)
  | boolean _ e => exact absurd e h1
  | enum _ e => exact absurd e h3
  | member _ e => exact absurd e h2
  | identity _ e => exact absurd e h4

mutual
theorem lists_of {known} : ∀ (t : TypeS) {s : String}, typeValues known t = .ok s → (∀ v, Offers known t v → v ≠ "") →
    ∃ l, Lists s l ∧ ∀ v, v ∈ l ↔ Offers known t v
  | .mk i (some t) ms, s, h, hp => by
    by_cases hr : i.restricted = false
    · have hn : Renames i (some t) t := ⟨rfl, hr⟩
      rw [typeValues_renames hn] at h
      obtain ⟨l, h1, h2⟩ := lists_of t h fun v hv => hp v ((offers_renames hn).2 hv)
      exact ⟨l, h1, fun v => (h2 v).trans (offers_renames hn).symm⟩
    · have hn : ∀ u, ¬ Renames i (some t) u := fun u hu => hr hu.2
      rw [typeValues_own hn] at h
      exact own_lists h hn hp fun vs e hm => lists_all ms e hm
  | .mk i none ms, s, h, hp => by
    have hn : ∀ u, ¬ Renames i none u := fun u hu => by cases hu.1
    rw [typeValues_own hn] at h
    exact own_lists h hn hp fun vs e hm => lists_all ms e hm
theorem lists_all {known} : ∀ (ms : List TypeS) {vs : List String}, unionValues known ms = .ok vs →
    (∀ m ∈ ms, ∀ v, Offers known m v → v ≠ "") →
    ∃ ss : List (String × List String), (∀ p ∈ ss, Lists p.1 p.2) ∧ vs = (ss.map Prod.fst).filter (· ≠ "") ∧
      ∀ v, v ∈ ss.flatMap Prod.snd ↔ ∃ m ∈ ms, Offers known m v
  | [], vs, h, _ => by
    rw [unionValues] at h
    cases h
    exact ⟨[], by simp, rfl, by simp⟩
  | t :: r, vs, h, hp => by
    rw [unionValues] at h
    cases ht : typeValues known t with
    | error e => rw [ht] at h; cases h
    | ok v =>
      cases hr : unionValues known r with
      | error e => rw [ht, hr] at h; cases h
      | ok ws =>
        rw [ht, hr] at h
        cases h
        obtain ⟨l, l1, l2⟩ := lists_of t ht (hp t (.head _))
        obtain ⟨ss, s1, s2, s3⟩ := lists_all r hr fun m hm => hp m (.tail _ hm)
        refine ⟨(v, l) :: ss, ?_, ?_, ?_⟩
        · intro p hp
          rcases List.mem_cons.1 hp with rfl | hp
          · exact l1
          · exact s1 p hp
        · rw [List.map_cons]
          by_cases hv : v = ""
          · rw [if_pos hv, List.filter_cons_of_neg (by simpa using hv), s2]
          · rw [if_neg hv, List.filter_cons_of_pos (by simpa using hv), s2]
        · intro w
          rw [List.flatMap_cons, List.mem_append, l2 w, s3 w]
          simp
end

/-! ## Failures -/

theorem own_error {known i td ms x} (hn : ∀ t, ¬ Renames i td t)
    (hu : unionValues known ms = .error x → ∃ m ∈ ms, Unknown known m x)
    (h : ownValues known i (unionValues known ms) = .error x) : Unknown known (.mk i td ms) x := by
  rw [ownValues] at h
  by_cases h1 : i.arg = "boolean"
  · rw [if_pos h1] at h; cases h
  rw [if_neg h1] at h
  by_cases h2 : i.arg = "union"
  · rw [if_pos h2] at h
    cases hv : unionValues known ms with
    | ok vs => rw [hv] at h; cases h
    | error e =>
      rw [hv] at h
      cases h
      obtain ⟨m, hm, hx⟩ := hu hv
      exact .member hn h2 hm hx
  rw [if_neg h2] at h
  by_cases h3 : i.arg = "enumeration"
  · rw [if_pos h3] at h; cases h
  rw [if_neg h3] at h
  by_cases h4 : i.arg = "identityref"
  · rw [if_pos h4] at h
    cases hb : i.base with
    | none => rw [hb] at h; cases h
    | some b =>
      rw [hb] at h
      simp only at h
      cases hk : known i.module b with
      | ok l => rw [hk] at h; cases h
      | error e =>
        rw [hk] at h
        cases h
        exact .identity hn h4 hb hk
  rw [if_neg h4] at h
  cases h

mutual
theorem unknown_of {known x} : ∀ (t : TypeS), typeValues known t = .error x → Unknown known t x
  | .mk i (some t) ms, h => by
    by_cases hr : i.restricted = false
    · have hn : Renames i (some t) t := ⟨rfl, hr⟩
      rw [typeValues_renames hn] at h
      exact .typedef hn (unknown_of t h)
    · have hn : ∀ u, ¬ Renames i (some t) u := fun u hu => hr hu.2
      rw [typeValues_own hn] at h
      exact own_error hn (unknown_all ms) h
  | .mk i none ms, h => by
    have hn : ∀ u, ¬ Renames i none u := fun u hu => by cases hu.1
    rw [typeValues_own hn] at h
    exact own_error hn (unknown_all ms) h
theorem unknown_all {known x} : ∀ (ms : List TypeS), unionValues known ms = .error x → ∃ m ∈ ms, Unknown known m x
  | [], h => by rw [unionValues] at h; cases h
  | t :: r, h => by
    rw [unionValues] at h
    cases ht : typeValues known t with
    | error e =>
      rw [ht] at h
      cases h
      exact ⟨t, .head _, unknown_of t ht⟩
    | ok v =>
      cases hr : unionValues known r with
      | ok ws => rw [ht, hr] at h; cases h
      | error e =>
        rw [ht, hr] at h
        cases h
        obtain ⟨m, hm, hx⟩ := unknown_all r hr
        exact ⟨m, .tail _ hm, hx⟩
end

theorem union_error {known} : ∀ {ms : List TypeS} {m : TypeS} {x : Err}, m ∈ ms → typeValues known m = .error x →
    ∃ y, unionValues known ms = .error y
  | t :: r, m, x, hm, h => by
    rw [unionValues]
    rcases List.mem_cons.1 hm with rfl | hm
    · exact ⟨x, by rw [h]⟩
    · obtain ⟨y, hy⟩ := union_error hm h
      cases ht : typeValues known t with
      | error e => exact ⟨e, rfl⟩
      | ok v => exact ⟨y, by simp only [hy]⟩

theorem fails_of_unknown {known t x} (h : Unknown known t x) : ∃ y, typeValues known t = .error y := by
  induction h with
  | typedef r _ ih => rw [typeValues_renames r]; exact ih
  | member n e hm _ ih =>
    obtain ⟨y, hy⟩ := ih
    obtain ⟨z, hz⟩ := union_error hm hy
    refine ⟨z, ?_⟩
    rw [typeValues_own n, ownValues, if_neg (by rw [e]; decide), if_pos e, hz]
    rfl
  | @identity i td ms b x n e hb hk =>
    refine ⟨x, ?_⟩
    rw [typeValues_own n, ownValues, if_neg (by rw [e]; decide), if_neg (by rw [e]; decide), if_neg (by rw [e]; decide),
      if_pos e, hb]
    simp only [hk]
    rfl

theorem splitColon_none : ∀ {l : List Char}, ':' ∉ l → splitColon l = none
  | [], _ => rfl
  | x :: r, h => by
    rw [splitColon, if_neg (fun e => h (by simp [e])), splitColon_none (fun e => h (by simp [e]))]
    rfl

theorem splitColon_some : ∀ {p n : List Char}, ':' ∉ p → splitColon (p ++ ':' :: n) = some (p, n)
  | [], _, _ => by simp [splitColon]
  | x :: r, n, h => by
    rw [List.cons_append, splitColon, if_neg (fun e => h (by simp [e])), splitColon_some (fun e => h (by simp [e]))]
    rfl

/-- The argument of a `base` statement is taken apart as it is written. -/
theorem baseOf_text {b base} (h : BaseText b base) : base = baseOf b := by
  cases h with
  | plain h => rw [baseOf, splitColon_none h]
  | @pre p n h =>
    have : (p ++ ":" ++ n).toList = p.toList ++ ':' :: n.toList := by
      simp [String.toList_append]
    rw [baseOf, this, splitColon_some h]
    simp

end NcDiff.Types
