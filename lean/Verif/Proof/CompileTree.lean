import Verif.Proof.CompileAttrs
import Verif.Proof.Tags
/-!
# Which modules can be compiled, and filters of requests
-/

namespace NcDiff.Compile

open NcDiff.ModelDiff (At SchemaTree)

/-! ## Totality -/

theorem datatypeText_ok {p : String} {t : TypeStmt} :
    (∃ d, datatypeText p t = .ok d) ↔ (t.arg = "identityref" → ∃ b, t.base = some b) := by
  unfold datatypeText
  by_cases h1 : t.arg = "leafref"
  · rw [if_pos h1]
    have : t.arg ≠ "identityref" := by rw [h1]; decide
    cases t.path <;> simp [this]
  · rw [if_neg h1]
    by_cases h2 : t.arg = "identityref"
    · rw [if_pos h2]
      cases t.base <;> simp [h2]
    · simp [h2]

theorem attrsOf_ok {mode i} : (∃ a, attrsOf mode i = .ok a) ↔
    ∀ t, i.LeafLike → i.type = some t → t.arg = "identityref" → ∃ b, t.base = some b := by
  have h1 : (∃ a, attrsOf mode i = .ok a) ↔ ∃ k, kindAttrs i = .ok k := by
    constructor
    · rintro ⟨a, h⟩
      obtain ⟨k, hk, _⟩ := bind_ok.1 h
      exact ⟨k, hk⟩
    · rintro ⟨k, hk⟩
      exact ⟨_, bind_ok.2 ⟨k, hk, rfl⟩⟩
  rw [h1]
  by_cases hl : i.LeafLike
  · have hk : i.keyword ≠ "list" ∧ i.keyword ≠ "container" ∧ i.keyword ≠ "choice" := by
      rcases hl with h | h <;> rw [h] <;> decide
    have hl' : i.keyword = "leaf" ∨ i.keyword = "leaf-list" := hl
    have h2 : (∃ k, kindAttrs i = .ok k) ↔ ∃ d, datatypeAttrs i = .ok d := by
      unfold kindAttrs
      rw [if_neg hk.1, if_neg hk.2.1, if_neg hk.2.2, if_pos hl']
      constructor
      · rintro ⟨a, h⟩
        obtain ⟨k, hk, _⟩ := bind_ok.1 h
        exact ⟨k, hk⟩
      · rintro ⟨k, hk⟩
        exact ⟨_, bind_ok.2 ⟨k, hk, rfl⟩⟩
    rw [h2]
    unfold datatypeAttrs
    cases ht : i.type with
    | none => simp
    | some t =>
      have h3 := @datatypeText_ok i.modulePrefix t
      constructor
      · rintro ⟨a, h⟩ t' _ he
        cases he
        obtain ⟨k, hk, _⟩ := bind_ok.1 h
        exact h3.1 ⟨k, hk⟩
      · intro h
        obtain ⟨k, hk⟩ := h3.2 (h t hl rfl)
        exact ⟨_, bind_ok.2 ⟨k, hk, rfl⟩⟩
  · refine ⟨fun _ t h => absurd h hl, fun _ => ?_⟩
    have hl' : ¬ (i.keyword = "leaf" ∨ i.keyword = "leaf-list") := hl
    unfold kindAttrs
    rw [if_neg hl']
    split <;> [exact ⟨_, rfl⟩; (split <;> [exact ⟨_, rfl⟩; (split <;> exact ⟨_, rfl⟩)])]

mutual
theorem depict_total {ns} : ∀ (s : Stmt) (mode : Option String),
    (∀ c, (c = [] ∨ Chain s.kids c) → Compilable ns (endOf s c)) → ∃ e, depict ns mode s = .ok e
  | .mk i ks, mode, h => by
    obtain ⟨⟨u, hu⟩, ht⟩ := h [] (.inl rfl)
    obtain ⟨a, ha⟩ := (attrsOf_ok (mode := mode)).2 ht
    obtain ⟨sub, hs⟩ := depictKids_total ks mode fun s hs c hc => h (s :: c) (.inr (by
      rcases hc with rfl | hc
      · exact .one hs
      · exact .more hs hc))
    exact ⟨_, depict_ok.2 ⟨u, a, sub, hu, ha, hs, rfl⟩⟩
theorem depictKids_total {ns} : ∀ (l : List Stmt) (mode : Option String),
    (∀ s ∈ l, ∀ c, (c = [] ∨ Chain s.kids c) → Compilable ns (endOf s c)) → ∃ es, depictKids ns mode l = .ok es
  | [], _, _ => ⟨[], rfl⟩
  | k :: r, mode, h => by
    obtain ⟨e, he⟩ := depict_total k (modeBelow mode k.info) (h k (.head _))
    obtain ⟨es, hes⟩ := depictKids_total r mode fun s hs => h s (.tail _ hs)
    exact ⟨e :: es, by rw [depictKids, bind_ok]; exact ⟨e, he, bind_ok.2 ⟨es, hes, rfl⟩⟩⟩
end

theorem depictTop_total {ns mode} : ∀ (l : List Stmt),
    (∀ s ∈ l, ∃ e, depict ns mode s = .ok e) → ∃ es, depictTop ns mode l = .ok es
  | [], _ => ⟨[], rfl⟩
  | k :: r, h => by
    obtain ⟨e, he⟩ := h k (.head _)
    obtain ⟨es, hes⟩ := depictTop_total r fun s hs => h s (.tail _ hs)
    exact ⟨e :: es, by rw [depictTop, bind_ok]; exact ⟨e, he, bind_ok.2 ⟨es, hes, rfl⟩⟩⟩

theorem compilable_of_depict {ns mode s e} (h : depict ns mode s = .ok e) : Compilable ns s := by
  obtain ⟨u, a, _, hu, ha, _, _⟩ := depict_ok.1 h
  exact ⟨⟨u, hu⟩, attrsOf_ok.1 ⟨a, ha⟩⟩

/-! ## Names of siblings -/

theorem nodup_tags {ns} {l : List Stmt} {es : List Elem} (h : List.Forall₂ (fun s e => Named ns e.tag s) l es)
    (hd : DistinctNames ns l) : (es.map Elem.tag).Nodup := by
  induction h with
  | nil => simp
  | @cons s e l es hse hr ih =>
    rw [DistinctNames, List.pairwise_cons] at hd
    rw [List.map_cons, List.nodup_cons]
    refine ⟨fun hm => ?_, ih hd.2⟩
    obtain ⟨e', he', ht⟩ := List.mem_map.1 hm
    obtain ⟨s', hs', hn⟩ := forall₂_mem_right hr he'
    refine hd.1 s' hs' ⟨?_, ?_⟩
    · rw [← hse.2, ← hn.2, ht]
    · rw [hse.1, hn.1, ht]

theorem distinct_ordered {ns kids} (h : DistinctNames ns kids) : DistinctNames ns (ordered kids) := by
  have hsym : ∀ {a b : Stmt},
      ¬ (a.info.arg = b.info.arg ∧ ns.lookup a.info.module = ns.lookup b.info.module) →
      ¬ (b.info.arg = a.info.arg ∧ ns.lookup b.info.module = ns.lookup a.info.module) :=
    fun h h' => h ⟨h'.1.symm, h'.2.symm⟩
  have hall : ∀ a ∈ kids, ∀ b ∈ kids, a.info.keyword ≠ b.info.keyword →
      ¬ (a.info.arg = b.info.arg ∧ ns.lookup a.info.module = ns.lookup b.info.module) := by
    clear * - h hsym
    induction kids with
    | nil => intro a ha; cases ha
    | cons k r ih =>
      rw [DistinctNames, List.pairwise_cons] at h
      intro a ha b hb hne
      rcases List.mem_cons.1 ha with ea | ha'
      · rcases List.mem_cons.1 hb with eb | hb'
        · exact absurd (by rw [ea, eb]) hne
        · exact ea ▸ h.1 b hb'
      · rcases List.mem_cons.1 hb with eb | hb'
        · exact eb ▸ hsym (h.1 a ha')
        · exact ih h.2 a ha' b hb' hne
  rw [ordered, DistinctNames, List.pairwise_append, List.pairwise_append]
  refine ⟨⟨h.filter _, h.filter _, ?_⟩, h.filter _, ?_⟩
  · intro a ha b hb
    obtain ⟨ha, hka⟩ := List.mem_filter.1 ha
    obtain ⟨hb, hkb⟩ := List.mem_filter.1 hb
    refine hall a ha b hb fun e => ?_
    rw [e, of_decide_eq_true hkb] at hka
    revert hka; decide
  · intro a ha b hb
    obtain ⟨hb, hkb⟩ := List.mem_filter.1 hb
    have hkb := of_decide_eq_true hkb
    rcases List.mem_append.1 ha with ha | ha
    · obtain ⟨ha, hka⟩ := List.mem_filter.1 ha
      refine hall a ha b hb fun e => ?_
      rw [e, hkb] at hka
      revert hka; decide
    · obtain ⟨ha, hka⟩ := List.mem_filter.1 ha
      refine hall a ha b hb fun e => ?_
      rw [of_decide_eq_true hka, hkb] at e
      revert e; decide

/-! ## Default values -/

theorem splitComma_append (a b : List Char) : splitComma (a ++ ',' :: b) = splitComma a ++ splitComma b := by
  induction a with
  | nil => simp [splitComma]
  | cons x a ih =>
    rw [List.cons_append, splitComma, splitComma]
    by_cases h : x = ','
    · rw [if_pos h, if_pos h, ih]; rfl
    · rw [if_neg h, if_neg h, ih]
      cases hs : splitComma a with
      | nil =>
        exfalso
        cases a with
        | nil => simp [splitComma] at hs
        | cons y a =>
          rw [splitComma] at hs
          split at hs
          · cases hs
          · split at hs <;> cases hs
      | cons p ps => rfl

theorem splitComma_plain {a : List Char} (h : ',' ∉ a) : splitComma a = [a] := by
  induction a with
  | nil => rfl
  | cons x a ih =>
    rw [List.mem_cons, not_or] at h
    rw [splitComma, if_neg (fun e => h.1 e.symm), ih h.2]

theorem splitComma_pos (a : List Char) : 1 ≤ (splitComma a).length := by
  cases a with
  | nil => simp [splitComma]
  | cons x a =>
    rw [splitComma]
    split
    · simp
    · split <;> simp

theorem splitComma_more {a : List Char} (h : ',' ∈ a) : 2 ≤ (splitComma a).length := by
  obtain ⟨p, q, rfl⟩ := List.append_of_mem h
  rw [splitComma_append, List.length_append]
  have := splitComma_pos p
  have := splitComma_pos q
  omega

theorem splitComma_join : ∀ {vs : List String}, vs ≠ [] →
    splitComma (joinWith "," vs).toList = vs.flatMap fun v => splitComma v.toList
  | [], h => absurd rfl h
  | [v], _ => by simp [joinWith]
  | v :: w :: r, _ => by
    have ih := splitComma_join (vs := w :: r) (by simp)
    rw [joinWith, String.toList_append, String.toList_append, List.append_assoc,
      show (",".toList : List Char) = [','] from rfl, List.singleton_append, splitComma_append, ih, List.flatMap_cons]
    · simp
    · intro h; cases h

theorem flatMap_length {vs : List String} : vs.length ≤ (vs.flatMap fun v => splitComma v.toList).length ∧
    ((∃ v ∈ vs, ',' ∈ v.toList) → vs.length < (vs.flatMap fun v => splitComma v.toList).length) := by
  induction vs with
  | nil => simp
  | cons v r ih =>
    rw [List.flatMap_cons, List.length_append, List.length_cons]
    have h1 := splitComma_pos v.toList
    refine ⟨by omega, ?_⟩
    rintro ⟨w, hw, hc⟩
    rcases List.mem_cons.1 hw with rfl | hw
    · have := splitComma_more hc
      omega
    · have := ih.2 ⟨w, hw, hc⟩
      omega

theorem defaults_read {vs : List String} (hv : vs ≠ []) :
    defaultValues (joinWith "," vs) = vs.map some ↔ ∀ v ∈ vs, ',' ∉ v.toList := by
  rw [defaultValues, splitComma_join hv]
  constructor
  · intro h v hvm hc
    have hl := congrArg List.length h
    rw [List.length_map, List.length_map] at hl
    have := (flatMap_length (vs := vs)).2 ⟨v, hvm, hc⟩
    omega
  · intro h
    clear hv
    induction vs with
    | nil => rfl
    | cons v r ih =>
      rw [List.flatMap_cons, List.map_append, ih fun w hw => h w (.tail _ hw), splitComma_plain (h v (.head _))]
      simp

/-! ## Types -/

theorem dtypeOf_identity {d : String} :
    dtypeOf (some d) = .identityref ↔ d.toList.take 11 = "identityref".toList := by
  unfold dtypeOf
  dsimp only
  by_cases h : d.toList.take 11 = "identityref".toList
  · rw [if_pos h]
    exact ⟨fun _ => h, fun _ => rfl⟩
  · rw [if_neg h]
    refine ⟨fun e => ?_, fun e => absurd e h⟩
    split at e <;> cases e

theorem dtypeOf_instance {d : String} : dtypeOf (some d) = .instanceId ↔ d = "instance-identifier" := by
  unfold dtypeOf
  dsimp only
  constructor
  · intro e
    split at e
    · cases e
    · split at e
      · assumption
      · cases e
  · rintro rfl
    decide

theorem dtype_text {p : String} {t : TypeStmt} {d : String} (h : datatypeText p t = .ok d) :
    (dtypeOf (some d) = .identityref ↔ t.arg.toList.take 11 = "identityref".toList) ∧
    (dtypeOf (some d) = .instanceId ↔ t.arg = "instance-identifier") := by
  rw [dtypeOf_identity, dtypeOf_instance]
  unfold datatypeText at h
  split at h
  · rename_i ha
    have h1 : ¬ t.arg.toList.take 11 = "identityref".toList := by rw [ha]; decide
    have h2 : ¬ t.arg = "instance-identifier" := by rw [ha]; decide
    cases hp : t.path with
    | none =>
      rw [hp] at h
      obtain rfl : t.arg = d := Except.ok.inj h
      exact ⟨Iff.rfl, Iff.rfl⟩
    | some q =>
      rw [hp] at h
      obtain rfl := Except.ok.inj h
      generalize joinWith "/" _ = w
      have hw : ("-> " ++ w).toList = '-' :: '>' :: ' ' :: w.toList := by
        rw [String.toList_append]; rfl
      refine ⟨⟨fun e => ?_, fun e => absurd e h1⟩, ⟨fun e => ?_, fun e => absurd e h2⟩⟩
      · rw [hw] at e
        rw [List.take_succ_cons] at e
        have := congrArg List.head? e
        rw [List.head?_cons] at this
        exact absurd this (by decide)
      · have e := congrArg String.toList e
        rw [hw] at e
        have := congrArg List.head? e
        rw [List.head?_cons] at this
        exact absurd this (by decide)
  · split at h
    · rename_i ha
      cases hb : t.base with
      | none => rw [hb] at h; cases h
      | some b =>
        rw [hb] at h
        obtain rfl := Except.ok.inj h
        have hw : (t.arg ++ ":" ++ b).toList = "identityref".toList ++ (':' :: b.toList) := by
          rw [String.toList_append, String.toList_append, ha, List.append_assoc]
          rfl
        have h3 : (t.arg ++ ":" ++ b).toList.take 11 = "identityref".toList := by
          rw [hw]; exact List.take_left' (by decide)
        have h1 : t.arg.toList.take 11 = "identityref".toList := by rw [ha]; decide
        have h2 : ¬ t.arg = "instance-identifier" := by rw [ha]; decide
        refine ⟨⟨fun _ => h1, fun _ => h3⟩, ⟨fun e => ?_, fun e => absurd e h2⟩⟩
        rw [e] at h3
        exact absurd h3 (by decide)
    · obtain rfl : t.arg = d := Except.ok.inj h
      exact ⟨Iff.rfl, Iff.rfl⟩

/-! ## Paths of leafrefs -/

theorem splitColon_eq : ∀ n : List Char,
    splitColon n = (n.idxOf? ':').map fun k => (n.take k, n.drop (k + 1))
  | [] => rfl
  | x :: r => by
    rw [splitColon, List.idxOf?_cons]
    by_cases h : x = ':'
    · subst h; simp
    · have hb : (x == ':') = false := by simpa using h
      rw [if_neg h, hb, splitColon_eq r]
      cases r.idxOf? ':' <;> simp

theorem splitColon_none {n : List Char} : splitColon n = none ↔ ':' ∉ n := by
  induction n with
  | nil => simp [splitColon]
  | cons x r ih =>
    rw [splitColon]
    by_cases h : x = ':'
    · subst h; simp
    · rw [if_neg h, Option.map_eq_none_iff, ih]
      simp [Ne.symm h]

theorem splitColon_some {n p m : List Char} (h : splitColon n = some (p, m)) : n = p ++ ':' :: m ∧ ':' ∉ p := by
  induction n generalizing p with
  | nil => cases h
  | cons x r ih =>
    rw [splitColon] at h
    by_cases hx : x = ':'
    · rw [if_pos hx] at h
      cases h
      exact ⟨by rw [hx]; rfl, by simp⟩
    · rw [if_neg hx] at h
      cases hs : splitColon r with
      | none => rw [hs] at h; cases h
      | some q =>
        obtain ⟨p', m'⟩ := q
        rw [hs] at h
        cases h
        obtain ⟨h1, h2⟩ := ih hs
        refine ⟨by rw [h1]; rfl, ?_⟩
        simp [h2, Ne.symm hx]

theorem splitColon_render {p m : List Char} (h : ':' ∉ p) : splitColon (p ++ ':' :: m) = some (p, m) := by
  induction p with
  | nil => simp [splitColon]
  | cons x p ih =>
    rw [List.mem_cons, not_or] at h
    rw [List.cons_append, splitColon, if_neg (Ne.symm h.1), ih h.2]
    rfl

theorem carry_cons {cur n r} : carry cur (n :: r) =
    match splitColon n with
    | none => (cur, n) :: carry cur r
    | some (p, m) => (p, m) :: carry p r := by
  rw [carry, splitColon_eq]
  cases n.idxOf? ':' <;> rfl

theorem carry_compact {cur : List Char} {ns : List (List Char)} (h : ∀ n ∈ ns, n.count ':' ≤ 1) :
    carry cur (compactNames cur ns) = carry cur ns := by
  induction ns generalizing cur with
  | nil => rfl
  | cons n r ih =>
    have hr : ∀ n ∈ r, n.count ':' ≤ 1 := fun x hx => h x (.tail _ hx)
    rw [compactNames, carry_cons (n := n)]
    cases hs : splitColon n with
    | none =>
      dsimp only
      rw [carry_cons, hs]
      dsimp only
      rw [ih hr]
    | some q =>
      obtain ⟨p, m⟩ := q
      obtain ⟨h1, h2⟩ := splitColon_some hs
      have hm : ':' ∉ m := by
        have := h n (.head _)
        rw [h1, List.count_append, List.count_cons_self] at this
        exact List.count_eq_zero.1 (by omega)
      dsimp only
      by_cases hp : p = cur
      · rw [if_pos hp, carry_cons, splitColon_none.2 hm]
        dsimp only
        rw [← hp, ih hr]
      · rw [if_neg hp, carry_cons, splitColon_render h2]
        dsimp only
        rw [ih hr]

theorem splitOn_ne {c : Char} (l : List Char) : splitOn c l ≠ [] := by
  cases l with
  | nil => simp [splitOn]
  | cons x r =>
    rw [splitOn]
    split
    · simp
    · split <;> simp

theorem splitOn_free {c : Char} : ∀ {l : List Char}, ∀ n ∈ splitOn c l, c ∉ n
  | [], n, h => by
    rw [splitOn, List.mem_singleton] at h
    subst h; simp
  | x :: r, n, h => by
    rw [splitOn] at h
    by_cases hx : x = c
    · rw [if_pos hx] at h
      rcases List.mem_cons.1 h with rfl | h
      · simp
      · exact splitOn_free n h
    · rw [if_neg hx] at h
      cases hs : splitOn c r with
      | nil => exact absurd hs (splitOn_ne r)
      | cons p ps =>
        rw [hs] at h
        rcases List.mem_cons.1 h with rfl | h
        · have := splitOn_free (l := r) p (by rw [hs]; exact .head _)
          simp [this, Ne.symm hx]
        · exact splitOn_free (l := r) n (by rw [hs]; exact .tail _ h)

theorem splitOn_append {c : Char} {a b : List Char} (h : c ∉ a) : splitOn c (a ++ c :: b) = a :: splitOn c b := by
  induction a with
  | nil => simp [splitOn]
  | cons x a ih =>
    rw [List.mem_cons, not_or] at h
    rw [List.cons_append, splitOn, if_neg (Ne.symm h.1), ih h.2]

theorem splitOn_plain {c : Char} {a : List Char} (h : c ∉ a) : splitOn c a = [a] := by
  induction a with
  | nil => rfl
  | cons x a ih =>
    rw [List.mem_cons, not_or] at h
    rw [splitOn, if_neg (Ne.symm h.1), ih h.2]

theorem splitOn_join : ∀ {l : List (List Char)}, l ≠ [] → (∀ n ∈ l, '/' ∉ n) →
    splitOn '/' (joinWith "/" (l.map String.ofList)).toList = l
  | [], h, _ => absurd rfl h
  | [n], _, h => by
    simp only [List.map_cons, List.map_nil, joinWith, String.toList_ofList]
    exact splitOn_plain (h n (.head _))
  | n :: m :: r, _, h => by
    have ih := splitOn_join (l := m :: r) (by simp) fun x hx => h x (.tail _ hx)
    rw [List.map_cons] at ih
    rw [List.map_cons, List.map_cons, joinWith, String.toList_append, String.toList_append, List.append_assoc,
      show ("/".toList : List Char) = ['/'] from rfl, List.singleton_append, String.toList_ofList,
      splitOn_append (h n (.head _)), ih]
    intro h; cases h

theorem compact_free {cur : List Char} {ns : List (List Char)} (h : ∀ n ∈ ns, '/' ∉ n) :
    ∀ n ∈ compactNames cur ns, '/' ∉ n := by
  induction ns generalizing cur with
  | nil => intro n hn; cases hn
  | cons x r ih =>
    have hr : ∀ n ∈ r, '/' ∉ n := fun y hy => h y (.tail _ hy)
    have hx := h x (.head _)
    intro n hn
    rw [compactNames] at hn
    cases hs : splitColon x with
    | none =>
      rw [hs] at hn
      rcases List.mem_cons.1 hn with rfl | hn
      · exact hx
      · exact ih hr n hn
    | some q =>
      obtain ⟨p, m⟩ := q
      obtain ⟨h1, _⟩ := splitColon_some hs
      rw [h1] at hx
      rw [hs] at hn
      dsimp only at hn
      split at hn
      · rcases List.mem_cons.1 hn with rfl | hn
        · exact fun hc => hx (List.mem_append_right _ (.tail _ hc))
        · exact ih hr n hn
      · rcases List.mem_cons.1 hn with rfl | hn
        · exact hx
        · exact ih hr n hn

theorem compact_ne {cur : List Char} {ns : List (List Char)} (h : ns ≠ []) : compactNames cur ns ≠ [] := by
  cases ns with
  | nil => exact absurd rfl h
  | cons x r =>
    rw [compactNames]
    cases splitColon x with
    | none => simp
    | some q => dsimp only; split <;> simp

theorem leafref_text {pfx : String} {t : TypeStmt} {p : String} (ha : t.arg = "leafref") (hp : t.path = some p)
    (h : ∀ n ∈ splitOn '/' p.toList, n.count ':' ≤ 1) :
    ∃ w, datatypeText pfx t = .ok ("-> " ++ w) ∧ carryPath pfx w = carryPath pfx p := by
  refine ⟨_, by rw [datatypeText, if_pos ha, hp], ?_⟩
  rw [carryPath, splitOn_join (compact_ne (splitOn_ne _)) (compact_free splitOn_free), carry_compact h, carryPath]

/-! ## Names of keys -/

theorem splitSpace_append {a b : List Char} (h : ' ' ∉ a) : splitSpace (a ++ ' ' :: b) = a :: splitSpace b := by
  induction a with
  | nil => simp [splitSpace]
  | cons x a ih =>
    rw [List.mem_cons, not_or] at h
    rw [List.cons_append, splitSpace, if_neg (Ne.symm h.1), ih h.2]

theorem splitSpace_plain {a : List Char} (h : ' ' ∉ a) : splitSpace a = [a] := by
  induction a with
  | nil => rfl
  | cons x a ih =>
    rw [List.mem_cons, not_or] at h
    rw [splitSpace, if_neg (Ne.symm h.1), ih h.2]

theorem splitSpace_ne (a : List Char) : splitSpace a ≠ [] := by
  cases a with
  | nil => simp [splitSpace]
  | cons c r =>
    rw [splitSpace]
    split
    · simp
    · split <;> simp

theorem splitSpace_space (a b : List Char) : splitSpace (a ++ ' ' :: b) = splitSpace a ++ splitSpace b := by
  induction a with
  | nil => simp [splitSpace]
  | cons c a ih =>
    rw [List.cons_append, splitSpace, splitSpace, ih]
    split
    · rfl
    · cases h : splitSpace a with
      | nil => exact absurd h (splitSpace_ne a)
      | cons p ps => rfl

theorem keyParts_space (a b : List Char) : keyParts (a ++ ' ' :: b) = keyParts a ++ keyParts b := by
  rw [keyParts, splitSpace_space, List.filter_append]; rfl

theorem keyParts_spaces {a : List Char} (h : ∀ c ∈ a, c = ' ') (b : List Char) : keyParts (a ++ b) = keyParts b := by
  induction a with
  | nil => rfl
  | cons c a ih =>
    obtain rfl := h c (.head _)
    have := keyParts_space [] (a ++ b)
    rw [List.nil_append] at this
    rw [List.cons_append, this, ih fun c hc => h c (.tail _ hc)]
    rfl

theorem keyParts_name {n b : List Char} (hn : n ≠ []) (hs : ' ' ∉ n) (hb : ∀ c ∈ b.head?, c = ' ') :
    keyParts (n ++ b) = n :: keyParts b := by
  have hone : keyParts n = [n] := by simp [keyParts, splitSpace_plain hs, hn]
  cases b with
  | nil => rw [List.append_nil, hone]; rfl
  | cons c b =>
    obtain rfl := hb c rfl
    rw [keyParts_space, hone]
    have := keyParts_space [] b
    rw [List.nil_append] at this
    rw [this]
    rfl

theorem splitSpace_head {v p : List Char} {ps : List (List Char)} (h : splitSpace v = p :: ps) :
    ∃ b, v = p ++ b ∧ (∀ c ∈ b.head?, c = ' ') ∧ keyParts b = ps.filter (· ≠ []) := by
  induction v generalizing p ps with
  | nil => rw [splitSpace] at h; cases h; exact ⟨[], rfl, by simp, rfl⟩
  | cons c r ih =>
    rw [splitSpace] at h
    split at h
    · cases h
      subst_vars
      exact ⟨' ' :: r, rfl, by simp, keyParts_space [] r⟩
    · cases hr : splitSpace r with
      | nil => exact absurd hr (splitSpace_ne r)
      | cons p' ps' =>
        rw [hr] at h
        cases h
        obtain ⟨b, rfl, hb, hk⟩ := ih hr
        exact ⟨b, rfl, hb, hk⟩

theorem keyLocal_plain {n : List Char} (h : '\n' ∉ n) :
    keyLocal n = match splitLastAt ':' n with | some (_, r) => r | none => n := by
  have h1 : n.getLast? ≠ some '\n' := fun e => h (List.mem_of_getLast? e)
  rw [keyLocal]
  simp only [if_neg h1, if_neg h]
  rfl

theorem white_space : White ' ' := by simp [White]
theorem white_lf : White '\n' := by simp [White]

theorem toList_ne {s : String} (h : s ≠ "") : s.toList ≠ [] := by
  intro e
  exact h (by rw [← String.ofList_toList (s := s), e])

theorem keyName_plain {x : Option String × String} (h1 : PlainName x.2) (h2 : ∀ p ∈ x.1, PlainName p) :
    (keyName x).toList ≠ [] ∧ (∀ c ∈ (keyName x).toList, ¬ White c) ∧ keyLocal (keyName x).toList = x.2.toList := by
  obtain ⟨o, n⟩ := x
  obtain ⟨h1, h3, h4⟩ := h1
  cases o with
  | none =>
    exact ⟨toList_ne h1, h3, by rw [keyName, keyLocal_plain fun h => h3 _ h white_lf, splitLastAt_none h4]⟩
  | some p =>
    obtain ⟨h5, h6, h7⟩ := h2 p rfl
    have hw : ∀ c ∈ (keyName (some p, n)).toList, ¬ White c := by
      intro c hc
      rw [keyName, String.toList_append, String.toList_append, show (":".toList : List Char) = [':'] from rfl,
        List.mem_append, List.mem_append, List.mem_singleton] at hc
      rcases hc with (hc | rfl) | hc
      · exact h6 c hc
      · simp [White]
      · exact h3 c hc
    refine ⟨?_, hw, ?_⟩
    · rw [keyName, String.toList_append, String.toList_append, show (":".toList : List Char) = [':'] from rfl]; simp
    · rw [keyLocal_plain fun h => hw _ h white_lf, keyName, String.toList_append, String.toList_append,
        show (":".toList : List Char) = [':'] from rfl,
        List.append_assoc, List.singleton_append, splitLastAt_sep (toList_ne h1) h4 (toList_ne h5)]

theorem keyNamesOf_spelled {v : String} {l : List (Option String × String)} (h : KeysSpelled v l) :
    keyNamesOf v = l.map Prod.snd := by
  rw [keyNamesOf]
  unfold KeysSpelled at h
  generalize v.toList = v at h
  induction h with
  | nil hs =>
    have := keyParts_spaces hs []
    rw [List.append_nil] at this
    rw [this]
    rfl
  | cons hs h1 h2 h3 _ ih =>
    obtain ⟨g1, g2, g3⟩ := keyName_plain h1 h2
    rw [List.append_assoc, keyParts_spaces hs, keyParts_name g1 (fun h => g2 _ h white_space) h3, List.map_cons, ih, g3,
      List.map_cons, String.ofList_toList]

/-! ## Filters -/

theorem pickRoots_ok {h : Host} {r : Request} {ms : List String} : ∀ {l : List (QName × String)},
    (∀ q m, (q, m) ∈ l → m ∈ ms → ∃ a, accessType h m q = .ok a) →
    ∃ res, pickRoots h r ms l = .ok res ∧ res.Sublist (l.map Prod.fst) ∧
      ∀ x, x ∈ res ↔ ∃ m, (x, m) ∈ l ∧ m ∈ ms ∧ ∃ a, accessType h m x = .ok a ∧ wanted r a = true
  | [], _ => ⟨[], rfl, by simp, by simp⟩
  | (q, m) :: rest, hl => by
    obtain ⟨res, hr, hs, hm⟩ := pickRoots_ok (r := r) (l := rest) fun q m hq => hl q m (.tail _ hq)
    by_cases hms : m ∈ ms
    · obtain ⟨a, ha⟩ := hl q m (.head _) hms
      refine ⟨if wanted r a then q :: res else res, ?_, ?_, fun x => ?_⟩
      · rw [pickRoots, hr]
        show (if ms.contains m = true then _ else _) = _
        rw [if_pos (by simpa using hms), ha]
        rfl
      · rw [List.map_cons]
        split
        · exact hs.cons₂ _
        · exact hs.cons _
      · constructor
        · intro hx
          by_cases hw : wanted r a = true
          · rw [if_pos hw] at hx
            rcases List.mem_cons.1 hx with rfl | hx
            · exact ⟨m, .head _, hms, a, ha, hw⟩
            · obtain ⟨m', h1, h2⟩ := (hm x).1 hx
              exact ⟨m', .tail _ h1, h2⟩
          · rw [if_neg hw] at hx
            obtain ⟨m', h1, h2⟩ := (hm x).1 hx
            exact ⟨m', .tail _ h1, h2⟩
        · rintro ⟨m', h1, h2, a', h3, h4⟩
          rcases List.mem_cons.1 h1 with e | h1
          · cases e
            rw [ha] at h3
            cases h3
            rw [if_pos h4]
            exact .head _
          · have := (hm x).2 ⟨m', h1, h2, a', h3, h4⟩
            split
            · exact .tail _ this
            · exact this
    · refine ⟨res, ?_, ?_, fun x => ?_⟩
      · rw [pickRoots, hr]
        show (if ms.contains m = true then _ else _) = _
        rw [if_neg (by simpa using hms)]
        rfl
      · rw [List.map_cons]; exact hs.cons _
      · rw [hm x]
        constructor
        · rintro ⟨m', h1, h2⟩
          exact ⟨m', .tail _ h1, h2⟩
        · rintro ⟨m', h1, h2⟩
          rcases List.mem_cons.1 h1 with e | h1
          · cases e; exact absurd h2.1 hms
          · exact ⟨m', h1, h2⟩

theorem lookup_model {l : List (String × Elem)} (hn : (l.map Prod.fst).Nodup) {m : String} {t : Elem}
    (h : (m, t) ∈ l) : l.lookup m = some t := by
  induction l with
  | nil => cases h
  | cons p l ih =>
    obtain ⟨m', t'⟩ := p
    rw [List.map_cons, List.nodup_cons] at hn
    rcases List.mem_cons.1 h with e | h'
    · cases e; simp
    · have : m ≠ m' := by
        rintro rfl
        exact hn.1 (List.mem_map.2 ⟨(m, t), h', rfl⟩)
      rw [List.lookup_cons, show (m == m') = false by simpa using this]
      exact ih hn.2 h'

theorem lookup_mem {l : List (String × Elem)} {m : String} {t : Elem} (h : l.lookup m = some t) : (m, t) ∈ l := by
  induction l with
  | nil => cases h
  | cons p l ih =>
    obtain ⟨m', t'⟩ := p
    rw [List.lookup_cons] at h
    by_cases e : m = m'
    · subst e
      simp only [beq_self_eq_true] at h
      cases h; exact .head _
    · rw [show (m == m') = false by simpa using e] at h
      exact .tail _ (ih h)

theorem unique_kid {l : List Elem} (hn : (l.map Elem.tag).Nodup) {k k' : Elem} (hk : k ∈ l) (hk' : k' ∈ l)
    (h : k.tag = k'.tag) : k = k' := by
  induction l with
  | nil => cases hk
  | cons x l ih =>
    rw [List.map_cons, List.nodup_cons] at hn
    rcases List.mem_cons.1 hk with e | hk1
    · rcases List.mem_cons.1 hk' with e' | hk2
      · rw [e, e']
      · exact absurd (List.mem_map.2 ⟨k', hk2, by rw [← h, e]⟩) hn.1
    · rcases List.mem_cons.1 hk' with e' | hk2
      · exact absurd (List.mem_map.2 ⟨k, hk1, by rw [h, e']⟩) hn.1
      · exact ih hn.2 hk1 hk2

theorem rootPairs_nodup {h : Host} (hw : WellLoaded h) (ho : OwnRoots h) :
    ((h.models.flatMap fun m => m.2.kids.map fun k => (k.tag, m.1)).map Prod.fst).Nodup := by
  have hw1 := hw.names
  have hw2 : ∀ m t, (m, t) ∈ h.models → (t.kids.map Elem.tag).Nodup :=
    fun m t hm => (hw.schema m t hm).tags [] t .here
  rw [OwnRoots] at ho
  clear hw
  generalize h.models = l at *
  induction l with
  | nil => simp
  | cons p l ih =>
    obtain ⟨m, t⟩ := p
    rw [List.flatMap_cons, List.map_append, List.nodup_append]
    rw [List.map_cons, List.nodup_cons] at hw1
    refine ⟨?_, ih (fun a b c d h1 h2 => ho a b c d (.tail _ h1) (.tail _ h2)) hw1.2
      fun m' t' hm => hw2 m' t' (.tail _ hm), ?_⟩
    · rw [List.map_map]
      exact hw2 m t (.head _)
    · intro a ha b hb hab
      rw [List.map_map] at ha
      obtain ⟨k, hk, rfl⟩ := List.mem_map.1 ha
      obtain ⟨⟨q, m'⟩, hq, rfl⟩ := List.mem_map.1 hb
      obtain ⟨⟨m'', t'⟩, hm, hq⟩ := List.mem_flatMap.1 hq
      obtain ⟨k', hk', he⟩ := List.mem_map.1 hq
      cases he
      have := ho m t m'' t' (.head _) (.tail _ hm) k hk k' hk' hab
      subst this
      exact hw1.1 (List.mem_map.2 ⟨(m, t'), hm, rfl⟩)

theorem rootDict_eq {h : Host} (hw : WellLoaded h) (ho : OwnRoots h) :
    Host.rootDict h = h.models.flatMap fun m => m.2.kids.map fun k => (k.tag, m.1) := by
  have := dictOf_nodup (acc := []) (ps := h.models.flatMap fun m => m.2.kids.map fun k => (k.tag, m.1))
    (by simpa using rootPairs_nodup hw ho)
  simpa [Host.rootDict, dictOf] using this

theorem accessType_of {h : Host} (hw : WellLoaded h) {m t k} (hm : (m, t) ∈ h.models) (hk : k ∈ t.kids) :
    accessType h m k.tag = .ok (strAttr k (.other "access")) := by
  rw [accessType, lookup_model hw.names hm]
  have hn : (t.kids.map Elem.tag).Nodup := (hw.schema m t hm).tags [] t .here
  have hmem : k ∈ t.childrenWith k.tag := by
    simp [Elem.childrenWith, hk]
  cases hc : t.childrenWith k.tag with
  | nil => rw [hc] at hmem; cases hmem
  | cons n r =>
    have hn' : n ∈ t.childrenWith k.tag := by rw [hc]; exact .head _
    have hn2 : n ∈ t.kids ∧ n.tag = k.tag := by
      simpa [Elem.childrenWith] using hn'
    simp only [hc]
    rw [unique_kid hn hn2.1 hk hn2.2]

theorem wanted_iff {r : Request} {a : Option String} : wanted r a = true ↔ ∃ x ∈ accessFor r, a = some x := by
  cases r <;> simp [wanted, accessFor]

theorem pickRoots_asked {h : Host} (hw : WellLoaded h) (ho : OwnRoots h) (r : Request) (ms : List String) :
    ∃ res, pickRoots h r ms (Host.rootDict h) = .ok res ∧ res.Nodup ∧
      ∀ x, x ∈ res ↔ AskedFor h ms (accessFor r) x := by
  have hmem : ∀ q m, (q, m) ∈ Host.rootDict h ↔ ∃ t, (m, t) ∈ h.models ∧ ∃ k ∈ t.kids, k.tag = q := by
    intro q m
    rw [rootDict_eq hw ho, List.mem_flatMap]
    constructor
    · rintro ⟨⟨m', t⟩, hm, hq⟩
      obtain ⟨k, hk, he⟩ := List.mem_map.1 hq
      cases he
      exact ⟨t, hm, k, hk, rfl⟩
    · rintro ⟨t, hm, k, hk, rfl⟩
      exact ⟨(m, t), hm, List.mem_map.2 ⟨k, hk, rfl⟩⟩
  obtain ⟨res, h1, h2, h3⟩ := pickRoots_ok (h := h) (r := r) (ms := ms) (l := Host.rootDict h) (by
    intro q m hq _
    obtain ⟨t, hm, k, hk, rfl⟩ := (hmem q m).1 hq
    exact ⟨_, accessType_of hw hm hk⟩)
  refine ⟨res, h1, h2.nodup ?_, fun x => ?_⟩
  · rw [rootDict_eq hw ho]; exact rootPairs_nodup hw ho
  · rw [h3 x]
    constructor
    · rintro ⟨m, hq, hms, a, ha, hwa⟩
      obtain ⟨t, hm, k, hk, rfl⟩ := (hmem x m).1 hq
      rw [accessType_of hw hm hk] at ha
      obtain ⟨y, hy, he⟩ := wanted_iff.1 hwa
      exact ⟨m, hms, t, hm, k, hk, rfl, y, hy, by rw [← he]; exact Except.ok.inj ha⟩
    · rintro ⟨m, hms, t, hm, k, hk, rfl, y, hy, he⟩
      exact ⟨m, (hmem _ m).2 ⟨t, hm, k, hk, rfl⟩, hms, _, accessType_of hw hm hk, wanted_iff.2 ⟨y, hy, he⟩⟩

end NcDiff.Compile
