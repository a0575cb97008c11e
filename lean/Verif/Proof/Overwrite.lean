import Verif.Spec.Overwrite
import Mathlib.Data.List.Basic
import Mathlib.Data.List.Perm.Basic
/-!
# Commands that overwrite one another
-/

namespace NcDiff.Running

/-- The step for what was found. -/
def overOne (st : OverState) (e : Str × Nat) : OverState :=
  let neg := st.neg.eraseP (fun line => ("no ".toList ++ lstrip e.1).isPrefixOf (lstrip line))
  match st.dict.lookup (strip e.1) with
  | some i => ⟨neg, (strip e.1, e.2) :: st.dict, i :: st.drop⟩
  | none => ⟨neg, (strip e.1, e.2) :: st.dict, st.drop⟩

/-- What is found, in the order in which the code finds it. -/
def events (fs : List (Str → Option Str)) (l : List (Str × Nat)) : List (Str × Nat) :=
  fs.flatMap fun f => l.filterMap fun p => (f p.1).map fun m => (m, p.2)

theorem overStep_fold (f : Str → Option Str) : ∀ (l : List (Str × Nat)) (st : OverState),
    l.foldl (overStep f) st = (l.filterMap fun p => (f p.1).map fun m => (m, p.2)).foldl overOne st
  | [], _ => rfl
  | p :: l, st => by
    rw [List.foldl_cons, overStep_fold f l]
    cases h : f p.1 with
    | none => simp only [List.filterMap_cons, h, Option.map_none, overStep]
    | some m =>
      simp only [List.filterMap_cons, h, Option.map_some, List.foldl_cons, overStep]
      congr 1

theorem over_fold (l : List (Str × Nat)) : ∀ (fs : List (Str → Option Str)) (st : OverState),
    fs.foldl (fun st f => l.foldl (overStep f) st) st = (events fs l).foldl overOne st
  | [], _ => rfl
  | f :: fs, st => by
    have h : events (f :: fs) l = (l.filterMap fun p => (f p.1).map fun m => (m, p.2)) ++ events fs l := rfl
    rw [List.foldl_cons, over_fold l fs, overStep_fold, h, List.foldl_append]

/-! ## Negations -/

/-- One removal for each head. -/
def eraseAll (hs : List Str) (l : List Str) : List Str :=
  hs.foldl (fun l h => l.eraseP fun line => ("no ".toList ++ h).isPrefixOf (lstrip line)) l

theorem over_neg : ∀ (es : List (Str × Nat)) (st : OverState),
    (es.foldl overOne st).neg = eraseAll (es.map fun e => lstrip e.1) st.neg
  | [], _ => rfl
  | e :: es, st => by
    rw [List.foldl_cons, over_neg es]
    have : (overOne st e).neg = st.neg.eraseP (fun line => ("no ".toList ++ lstrip e.1).isPrefixOf (lstrip line)) := by
      unfold overOne
      simp only
      split <;> rfl
    rw [this]
    rfl

/-- No head is the beginning of another. -/
def Exclusive (hs : List Str) : Prop := ∀ a ∈ hs, ∀ b ∈ hs, a <+: b → a = b

theorem Exclusive.eq {hs : List Str} (h : Exclusive hs) {a b n : Str} (ha : a ∈ hs) (hb : b ∈ hs)
    (h1 : ("no ".toList ++ a).isPrefixOf n = true) (h2 : ("no ".toList ++ b).isPrefixOf n = true) : a = b := by
  rw [List.isPrefixOf_iff_prefix] at h1 h2
  rcases List.prefix_or_prefix_of_prefix h1 h2 with h' | h'
  · exact h a ha b hb (by simpa using h')
  · exact (h b hb a ha (by simpa using h')).symm

theorem eraseAll_cons (n : Str) (r : List Str) : ∀ (hs : List Str), Exclusive hs → eraseAll hs (n :: r) =
    match hs.find? (fun h => ("no ".toList ++ h).isPrefixOf (lstrip n)) with
    | some h => eraseAll (hs.erase h) r
    | none => n :: eraseAll hs r
  | [], _ => rfl
  | a :: hs, hex => by
    have hex' : Exclusive hs := fun x hx y hy => hex x (by simp [hx]) y (by simp [hy])
    by_cases ha : ("no ".toList ++ a).isPrefixOf (lstrip n) = true
    · rw [List.find?_cons_of_pos (by simpa using ha)]
      simp only [List.erase_cons_head]
      unfold eraseAll
      rw [List.foldl_cons, List.eraseP_cons_of_pos (by simpa using ha)]
    · rw [List.find?_cons_of_neg (by simpa using ha)]
      have h1 : eraseAll (a :: hs) (n :: r) = eraseAll hs (n :: r.eraseP fun line => ("no ".toList ++ a).isPrefixOf (lstrip line)) := by
        unfold eraseAll
        rw [List.foldl_cons, List.eraseP_cons_of_neg (by simpa using ha)]
      rw [h1]
      have ih : ∀ r', eraseAll hs (n :: r') = match hs.find? (fun h => ("no ".toList ++ h).isPrefixOf (lstrip n)) with
        | some h => eraseAll (hs.erase h) r'
        | none => n :: eraseAll hs r' := fun r' => eraseAll_cons n r' hs hex'
      rw [ih]
      cases hf : hs.find? (fun h => ("no ".toList ++ h).isPrefixOf (lstrip n)) with
      | none => rfl
      | some h =>
        have hne : a ≠ h := by
          rintro rfl
          exact ha (by simpa using List.find?_some hf)
        have he : (a :: hs).erase h = a :: hs.erase h := List.erase_cons_tail (by simpa using hne)
        simp only [he]
        rfl

theorem eraseAll_spend : ∀ (l hs : List Str), Exclusive hs → eraseAll hs l = spend hs l
  | [], hs, hex => by
    rw [spend]
    unfold eraseAll
    clear hex
    induction hs with
    | nil => rfl
    | cons a hs ih => rw [List.foldl_cons]; exact ih
  | n :: r, hs, hex => by
    rw [eraseAll_cons n r hs hex, spend]
    cases hf : hs.find? (fun h => ("no ".toList ++ h).isPrefixOf (lstrip n)) with
    | none => simp only; rw [eraseAll_spend r hs hex]
    | some h =>
      simp only
      exact eraseAll_spend r _ fun x hx y hy => hex x (List.mem_of_mem_erase hx) y (List.mem_of_mem_erase hy)

theorem spend_perm : ∀ (l : List Str) {hs hs' : List Str}, hs.Perm hs' → Exclusive hs → spend hs l = spend hs' l
  | [], _, _, _, _ => rfl
  | n :: r, hs, hs', hp, hex => by
    rw [spend, spend]
    cases hf : hs.find? (fun h => ("no ".toList ++ h).isPrefixOf (lstrip n)) with
    | none =>
      have : hs'.find? (fun h => ("no ".toList ++ h).isPrefixOf (lstrip n)) = none := by
        rw [List.find?_eq_none] at hf ⊢
        exact fun x hx => hf x (hp.mem_iff.2 hx)
      rw [this]
      simp only
      rw [spend_perm r hp hex]
    | some h =>
      have hm := List.mem_of_find?_eq_some hf
      have hh := List.find?_some hf
      cases hf' : hs'.find? (fun h => ("no ".toList ++ h).isPrefixOf (lstrip n)) with
      | none =>
        rw [List.find?_eq_none] at hf'
        exact absurd hh (hf' h (hp.mem_iff.1 hm))
      | some h' =>
        have hh' : ("no ".toList ++ h').isPrefixOf (lstrip n) = true := by simpa using List.find?_some hf'
        have := hex.eq hm (hp.mem_iff.2 (List.mem_of_find?_eq_some hf')) hh hh'
        subst this
        simp only
        exact spend_perm r (hp.erase h) fun x hx y hy => hex x (List.mem_of_mem_erase hx) y (List.mem_of_mem_erase hy)

/-! ## Commands -/

/-- A position that is found and again later. -/
theorem over_drop : ∀ (es : List (Str × Nat)) (st : OverState) (i : Nat), i ∈ (es.foldl overOne st).drop ↔ i ∈ st.drop ∨
    (∃ c, st.dict.lookup c = some i ∧ ∃ e ∈ es, strip e.1 = c) ∨
    ∃ A B m, es = A ++ (m, i) :: B ∧ ∃ e ∈ B, strip e.1 = strip m
  | [], st, i => by simp
  | e :: es, st, i => by
    rw [List.foldl_cons, over_drop es]
    have hd : (overOne st e).dict = (strip e.1, e.2) :: st.dict := by
      unfold overOne; simp only; split <;> rfl
    have hdr : i ∈ (overOne st e).drop ↔ i ∈ st.drop ∨ st.dict.lookup (strip e.1) = some i := by
      unfold overOne
      simp only
      split
      · rename_i j hj
        rw [hj]; simp only [List.mem_cons, Option.some.injEq]
        constructor
        · rintro (rfl | h)
          · exact Or.inr rfl
          · exact Or.inl h
        · rintro (h | rfl)
          · exact Or.inr h
          · exact Or.inl rfl
      · rename_i hj
        rw [hj]; simp
    rw [hdr, hd]
    constructor
    · rintro ((h | h) | ⟨c, h, e', he', hc⟩ | ⟨A, B, m, hes, h⟩)
      · exact Or.inl h
      · exact Or.inr (Or.inl ⟨_, h, e, by simp, rfl⟩)
      · rw [List.lookup_cons] at h
        split at h
        · rename_i hcc
          rw [beq_iff_eq] at hcc
          obtain rfl := Option.some.inj h
          exact Or.inr (Or.inr ⟨[], es, e.1, rfl, e', he', by rw [hc, hcc]⟩)
        · exact Or.inr (Or.inl ⟨c, h, e', by simp [he'], hc⟩)
      · exact Or.inr (Or.inr ⟨e :: A, B, m, by rw [hes]; rfl, h⟩)
    · rintro (h | ⟨c, h, e', he', hc⟩ | ⟨A, B, m, hes, h⟩)
      · exact Or.inl (Or.inl h)
      · rcases List.mem_cons.1 he' with rfl | he'
        · exact Or.inl (Or.inr (by rw [hc]; exact h))
        · by_cases hcc : c = strip e.1
          · exact Or.inl (Or.inr (by rw [← hcc]; exact h))
          · refine Or.inr (Or.inl ⟨c, ?_, e', he', hc⟩)
            rw [List.lookup_cons, beq_false_of_ne hcc]
            exact h
      · cases A with
        | nil =>
          simp only [List.nil_append, List.cons.injEq] at hes
          obtain ⟨rfl, rfl⟩ := hes
          obtain ⟨e', he', hc⟩ := h
          refine Or.inr (Or.inl ⟨strip m, ?_, e', he', hc⟩)
          rw [List.lookup_cons, beq_self_eq_true]
        | cons a A =>
          simp only [List.cons_append, List.cons.injEq] at hes
          obtain ⟨rfl, rfl⟩ := hes
          exact Or.inr (Or.inr ⟨A, B, m, rfl, h⟩)

theorem mem_ev {f : Str → Option Str} {l : List Str} {m : Str} {i : Nat} :
    (m, i) ∈ (l.zipIdx.filterMap fun p => (f p.1).map fun m => (m, p.2)) ↔ ∃ a, l[i]? = some a ∧ f a = some m := by
  rw [List.mem_filterMap]
  constructor
  · rintro ⟨⟨a, k⟩, hp, h⟩
    rw [List.mk_mem_zipIdx_iff_getElem?] at hp
    obtain ⟨m', hm', h⟩ := Option.map_eq_some_iff.1 h
    cases h
    exact ⟨a, hp, hm'⟩
  · rintro ⟨a, h1, h2⟩
    exact ⟨(a, i), List.mk_mem_zipIdx_iff_getElem?.2 h1, by simp [h2]⟩

theorem ev_pairwise (f : Str → Option Str) (l : List Str) :
    (l.zipIdx.filterMap fun p => (f p.1).map fun m => (m, p.2)).Pairwise fun x y => x.2 < y.2 := by
  rw [List.pairwise_filterMap]
  have : ∀ (l : List Str) (n : Nat), (l.zipIdx n).Pairwise fun x y => x.2 < y.2 := by
    intro l
    induction l with
    | nil => intro n; exact .nil
    | cons a l ih =>
      intro n
      rw [List.zipIdx_cons]
      refine .cons (fun p hp => ?_) (ih _)
      have := List.le_snd_of_mem_zipIdx hp
      exact Nat.lt_of_succ_le this
  refine (this l 0).imp ?_
  intro x y h b hb b' hb'
  obtain ⟨_, _, rfl⟩ := Option.map_eq_some_iff.1 hb
  obtain ⟨_, _, rfl⟩ := Option.map_eq_some_iff.1 hb'
  exact h

theorem split_pairwise {es : List (Str × Nat)} (h : es.Pairwise fun x y => x.2 < y.2) {x y : Str × Nat} (hx : x ∈ es)
    (hy : y ∈ es) (hl : x.2 < y.2) : ∃ A B, es = A ++ x :: B ∧ y ∈ B := by
  obtain ⟨A, B, rfl⟩ := List.append_of_mem hx
  refine ⟨A, B, rfl, ?_⟩
  rcases List.mem_append.1 hy with hy | hy
  · have := (List.pairwise_append.1 h).2.2 y hy x (by simp)
    omega
  · rcases List.mem_cons.1 hy with rfl | hy
    · omega
    · exact hy

theorem mem_events {fs : List (Str → Option Str)} {l : List Str} {m : Str} {i : Nat} : (m, i) ∈ events fs l.zipIdx ↔
    ∃ f ∈ fs, ∃ a, l[i]? = some a ∧ f a = some m := by
  unfold events
  rw [List.mem_flatMap]
  constructor
  · rintro ⟨f, hf, h⟩; exact ⟨f, hf, mem_ev.1 h⟩
  · rintro ⟨f, hf, h⟩; exact ⟨f, hf, mem_ev.2 h⟩

/-- The condition that expressions are apart. -/
def FoundApart (fs : List (Str → Option Str)) (l : List Str) : Prop :=
  fs.Pairwise fun f g => ∀ a ∈ l, ∀ b ∈ l, ∀ m n, f a = some m → g b = some n → strip m ≠ strip n

/-- The place of two things that are found one after another. -/
theorem events_split {l : List Str} : ∀ {fs : List (Str → Option Str)}, FoundApart fs l → ∀ {A B : List (Str × Nat)} {m : Str} {i : Nat},
    events fs l.zipIdx = A ++ (m, i) :: B → ∀ {n : Str} {j : Nat}, (n, j) ∈ B → strip n = strip m →
    i < j ∧ ∃ f ∈ fs, ∃ a b, l[i]? = some a ∧ f a = some m ∧ l[j]? = some b ∧ f b = some n
  | [], _, A, B, m, i, h, _, _, _, _ => by
    unfold events at h
    simp at h
  | f :: fs, hap, A, B, m, i, h, n, j, hn, hs => by
    have hap' := List.pairwise_cons.1 hap
    have h0 : events (f :: fs) l.zipIdx = (l.zipIdx.filterMap fun p => (f p.1).map fun m => (m, p.2)) ++ events fs l.zipIdx := rfl
    rw [h0] at h
    rcases List.append_eq_append_iff.1 h with ⟨C, h1, h2⟩ | ⟨C, h1, h2⟩
    · obtain ⟨h3, g, hg, r⟩ := events_split hap'.2 h2 hn hs
      exact ⟨h3, g, by simp [hg], r⟩
    · cases C with
      | nil =>
        simp only [List.nil_append] at h2
        obtain ⟨h3, g, hg, r⟩ := events_split (A := []) hap'.2 (by simpa using h2.symm) hn hs
        exact ⟨h3, g, by simp [hg], r⟩
      | cons c C =>
        simp only [List.cons_append, List.cons.injEq] at h2
        obtain ⟨rfl, rfl⟩ := h2
        obtain ⟨a, ha1, ha2⟩ := mem_ev.1 (show (m, i) ∈ _ by rw [h1]; simp)
        rcases List.mem_append.1 hn with hn | hn
        · obtain ⟨b, hb1, hb2⟩ := mem_ev.1 (show (n, j) ∈ _ by rw [h1]; simp [hn])
          have hp := ev_pairwise f l
          rw [h1] at hp
          have := (List.pairwise_cons.1 (List.pairwise_append.1 hp).2.1).1 (n, j) hn
          exact ⟨this, f, by simp, a, b, ha1, ha2, hb1, hb2⟩
        · obtain ⟨g, hg, b, hb1, hb2⟩ := mem_events.1 hn
          exact absurd hs.symm (hap'.1 g hg a (List.mem_of_getElem? ha1) b (List.mem_of_getElem? hb1) m n ha2 hb2)

theorem events_append (fs gs : List (Str → Option Str)) (l : List (Str × Nat)) : events (fs ++ gs) l = events fs l ++ events gs l := by
  unfold events; rw [List.flatMap_append]

theorem drop_iff {t : Tables} {l : List Str} (h : FoundApart t.overwritable l) {n0 : List Str} {i : Nat} :
    i ∈ ((events t.overwritable l.zipIdx).foldl overOne ⟨n0, [], []⟩).drop ↔
      ∃ a, l[i]? = some a ∧ ∃ m ∈ found t a, ∃ j b, i < j ∧ l[j]? = some b ∧ ∃ n ∈ found t b, strip n = strip m := by
  rw [over_drop]
  constructor
  · rintro (h1 | ⟨c, h1, _⟩ | ⟨A, B, m, hes, ⟨n, j⟩, he, hs⟩)
    · cases h1
    · cases h1
    · obtain ⟨h1, f, hf, a, b, h2, h3, h4, h5⟩ := events_split h hes he hs
      exact ⟨a, h2, m, List.mem_filterMap.2 ⟨f, hf, h3⟩, j, b, h1, h4, n, List.mem_filterMap.2 ⟨f, hf, h5⟩, hs⟩
  · rintro ⟨a, h1, m, hm, j, b, hj, h2, n, hn, hs⟩
    obtain ⟨f, hf, hfa⟩ := List.mem_filterMap.1 hm
    obtain ⟨g, hg, hgb⟩ := List.mem_filterMap.1 hn
    refine Or.inr (Or.inr ?_)
    have ha := List.mem_of_getElem? h1
    have hb := List.mem_of_getElem? h2
    obtain ⟨F, G, hFG⟩ := List.append_of_mem hf
    have hfg : g = f := by
      unfold FoundApart at h
      rw [hFG] at h hg
      rcases List.mem_append.1 hg with hg | hg
      · exact absurd hs ((List.pairwise_append.1 h).2.2 g hg f (by simp) b hb a ha n m hgb hfa)
      · rcases List.mem_cons.1 hg with rfl | hg
        · rfl
        · exact absurd hs.symm ((List.pairwise_cons.1 (List.pairwise_append.1 h).2.1).1 g hg a ha b hb m n hfa hgb)
    subst hfg
    obtain ⟨A, B, hAB, hB⟩ := split_pairwise (ev_pairwise g l) (mem_ev.2 ⟨a, h1, hfa⟩) (mem_ev.2 ⟨b, h2, hgb⟩) hj
    refine ⟨events F l.zipIdx ++ A, B ++ events G l.zipIdx, m, ?_, (n, j), by simp [hB], hs⟩
    rw [hFG, events_append]
    have : events (g :: G) l.zipIdx = (l.zipIdx.filterMap fun p => (g p.1).map fun m => (m, p.2)) ++ events G l.zipIdx := rfl
    rw [this, hAB]
    simp

theorem keepLast_filter {heads : Str → List Str} : ∀ {l : List Str} {k : Nat} {P : Nat → Bool},
    (∀ i a, l[i]? = some a → (P (k + i) = true ↔ ¬ ∃ h ∈ heads a, ∃ j b, i < j ∧ l[j]? = some b ∧ h ∈ heads b)) →
    ((l.zipIdx k).filter fun p => P p.2).map Prod.fst = keepLast heads l
  | [], _, _, _ => rfl
  | a :: l, k, P, h => by
    have ih := keepLast_filter (heads := heads) (l := l) (k := k + 1) (P := P) (by
      intro i b hb
      have := h (i + 1) b (by simpa using hb)
      rw [show k + 1 + i = k + (i + 1) by omega, this]
      refine not_congr ⟨?_, ?_⟩
      · rintro ⟨x, hx, j, c, hj, hc, hxc⟩
        obtain ⟨j', rfl⟩ : ∃ j', j = j' + 1 := ⟨j - 1, by omega⟩
        exact ⟨x, hx, j', c, by omega, by simpa using hc, hxc⟩
      · rintro ⟨x, hx, j, c, hj, hc, hxc⟩
        exact ⟨x, hx, j + 1, c, by omega, by simpa using hc, hxc⟩)
    rw [List.zipIdx_cons, keepLast]
    have h0 := h 0 a (by simp)
    have hiff : (∃ x ∈ heads a, ∃ j b, 0 < j ∧ (a :: l)[j]? = some b ∧ x ∈ heads b) ↔ ∃ x ∈ heads a, ∃ b ∈ l, x ∈ heads b := by
      constructor
      · rintro ⟨x, hx, j, b, hj, hb, hxb⟩
        obtain ⟨j', rfl⟩ : ∃ j', j = j' + 1 := ⟨j - 1, by omega⟩
        exact ⟨x, hx, b, List.mem_of_getElem? (by simpa using hb), hxb⟩
      · rintro ⟨x, hx, b, hb, hxb⟩
        obtain ⟨j, hj⟩ := List.mem_iff_getElem?.1 hb
        exact ⟨x, hx, j + 1, b, by omega, by simpa using hj, hxb⟩
    rw [hiff] at h0
    by_cases hx : ∃ x ∈ heads a, ∃ b ∈ l, x ∈ heads b
    · rw [if_pos hx, List.filter_cons_of_neg (by simpa using fun h => h0.1 h hx), ih]
    · rw [if_neg hx, List.filter_cons_of_pos (by simpa using h0.2 hx), List.map_cons, ih]

theorem swap_perm (l : List Str) : ∀ (fs : List (Str → Option Str)),
    (fs.flatMap fun f => l.filterMap f).Perm (l.flatMap fun a => fs.filterMap fun f => f a)
  | [] => by simp
  | f :: fs => by
    have h1 : (l.flatMap fun a => (f :: fs).filterMap fun f => f a) =
        l.flatMap fun a => (f a).toList ++ fs.filterMap fun f => f a := by
      refine List.flatMap_congr fun a _ => ?_
      cases h : f a <;> simp [List.filterMap_cons, h]
    have h2 : l.filterMap f = l.flatMap fun a => (f a).toList := List.filterMap_eq_flatMap_toList f l
    rw [List.flatMap_cons, h1, h2]
    exact ((swap_perm l fs).append_left _).trans (List.flatMap_append_perm l _ _)

theorem events_perm (t : Tables) (l : List Str) :
    ((events t.overwritable l.zipIdx).map Prod.fst).Perm (l.flatMap (found t)) := by
  have h : (events t.overwritable l.zipIdx).map Prod.fst = t.overwritable.flatMap fun f => l.filterMap f := by
    unfold events
    rw [List.map_flatMap]
    refine List.flatMap_congr fun f _ => ?_
    rw [List.map_filterMap]
    have : (fun p : Str × Nat => ((f p.1).map fun m => (m, p.2)).map Prod.fst) = fun p => f p.1 := by
      funext p; cases f p.1 <;> rfl
    rw [this]
    have h := List.filterMap_map (f := Prod.fst) (g := f) (l := l.zipIdx)
    rw [List.zipIdx_map_fst] at h
    exact h.symm
  rw [h]
  exact swap_perm l t.overwritable

end NcDiff.Running
