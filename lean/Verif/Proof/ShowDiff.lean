import Verif.Proof.ShowRead
import Verif.Proof.ModelView
/-!
# Lemmas about printed models: same texts, names, differences
-/

namespace NcDiff.Show

open ModelDiff Compile

/-! ## Dictionaries -/

theorem lookup_append {α β : Type} [BEq α] {k : α} : ∀ {a b : List (α × β)}, (a ++ b).lookup k = (a.lookup k).or (b.lookup k)
  | [], b => by simp
  | (k', v) :: a, b => by
    rw [List.cons_append, List.lookup_cons, List.lookup_cons]
    split
    · rfl
    · exact lookup_append

theorem lookup_dictSet {α β : Type} [DecidableEq α] [BEq α] [LawfulBEq α] {d : List (α × β)} {k k' : α} {v : β} :
    (dictSet d k v).lookup k' = if k' = k then some v else d.lookup k' := by
  unfold dictSet
  have hmap : ∀ d : List (α × β), (d.map fun e => if e.1 = k then (k, v) else e).lookup k' =
      if k' = k ∧ d.any (fun e => e.1 = k) then some v else d.lookup k' := by
    intro d
    induction d with
    | nil => simp
    | cons e d ih =>
      obtain ⟨a, b⟩ := e
      by_cases ha : a = k
      · subst ha
        by_cases hk : k' = a
        · subst hk; simp
        · have : (k' == a) = false := by simpa using hk
          simp [List.lookup_cons, this, ih, hk]
      · rw [List.map_cons, if_neg ha, List.lookup_cons, List.lookup_cons, ih]
        by_cases hk : k' = k
        · subst hk
          have : (k' == a) = false := by simpa using fun h => ha h.symm
          rw [this]
          simp only [List.any_cons, ha, decide_false, Bool.false_or, true_and]
        · simp [hk]
  split
  · rename_i h
    rw [hmap]
    simp [h]
  · rename_i h
    rw [lookup_append]
    have hn : d.lookup k = none := by
      rw [List.lookup_eq_none_iff]
      intro e he
      have := h
      simp only [List.any_eq_true, decide_eq_true_eq, not_exists, not_and] at this
      simpa using fun h => this e he h.symm
    by_cases hk : k' = k
    · subst hk; simp [hn]
    · have : (k' == k) = false := by simpa using hk
      simp [List.lookup_cons, this, hk]

/-- The last entry of a key counts. -/
theorem lookup_dictOf {α β : Type} [DecidableEq α] [BEq α] [LawfulBEq α] {l : List (α × β)} {k : α} :
    (dictOf l).lookup k = ((l.filter fun e => e.1 = k).getLast?).map Prod.snd := by
  have : ∀ (l d : List (α × β)), (l.foldl (fun d e => dictSet d e.1 e.2) d).lookup k =
      (((l.filter fun e => e.1 = k).getLast?).map Prod.snd).or (d.lookup k) := by
    intro l
    induction l with
    | nil => intro d; simp
    | cons e l ih =>
      intro d
      rw [List.foldl_cons, ih, lookup_dictSet, List.filter_cons]
      by_cases h : k = e.1
      · subst h
        rw [if_pos rfl, if_pos (by simp), List.getLast?_cons]
        cases (l.filter fun x => x.1 = e.1).getLast? <;> simp
      · rw [if_neg h, if_neg (by simpa using fun h' => h h'.symm)]
  rw [dictOf, this]
  simp

theorem dictOf_ne {α β : Type} [DecidableEq α] [BEq α] [LawfulBEq α] {l : List (α × β)} {k : α} :
    (dictOf l).lookup k ≠ none ↔ ∃ v, (k, v) ∈ l := by
  rw [lookup_dictOf]
  constructor
  · intro h
    cases hl : (l.filter fun e => e.1 = k).getLast? with
    | none => rw [hl] at h; exact absurd rfl h
    | some e =>
      have := List.mem_of_getLast? hl
      rw [List.mem_filter] at this
      obtain ⟨a, b⟩ := e
      have ha : a = k := by simpa using this.2
      exact ⟨b, ha ▸ this.1⟩
  · rintro ⟨v, hv⟩
    have : (k, v) ∈ l.filter fun e => e.1 = k := by simp [hv]
    cases hl : (l.filter fun e => e.1 = k).getLast? with
    | none => rw [List.getLast?_eq_none_iff] at hl; rw [hl] at this; cases this
    | some e => simp

/-! ## The namespaces of a model -/

theorem namespaceRows_eq : ∀ {l : List Elem} {rows : List (String × Option String)}, namespaceRows l = .ok rows →
    (∀ c ∈ l, ∃ p, strAttr c (.other "prefix") = some p) ∧
      ∀ p, rows.filter (fun e => e.1 = p) = (l.filter fun c => strAttr c (.other "prefix") = some p).map fun c => (p, c.text)
  | [], rows, h => by
    obtain rfl := Except.ok.inj h
    simp
  | c :: r, rows, h => by
    rw [namespaceRows] at h
    split at h
    · cases h
    · rename_i q hq
      obtain ⟨l, hl, h⟩ := bind_ok.1 h
      obtain rfl := Except.ok.inj h
      obtain ⟨h1, h2⟩ := namespaceRows_eq hl
      refine ⟨fun x hx => ?_, fun p => ?_⟩
      · rcases List.mem_cons.1 hx with rfl | hx
        · exact ⟨q, hq⟩
        · exact h1 x hx
      · rw [List.filter_cons, List.filter_cons, h2, hq]
        by_cases hp : q = p
        · subst hp; simp
        · simp [hp]

theorem namespaceRows_ok : ∀ {l : List Elem}, (∀ c ∈ l, ∃ p, strAttr c (.other "prefix") = some p) → ∃ rows, namespaceRows l = .ok rows
  | [], _ => ⟨[], rfl⟩
  | c :: r, h => by
    obtain ⟨p, hp⟩ := h c (.head _)
    obtain ⟨l, hl⟩ := namespaceRows_ok fun x hx => h x (.tail _ hx)
    exact ⟨(p, c.text) :: l, by rw [namespaceRows, hp, hl]; rfl⟩

theorem declares_filter (l : List Elem) (p : String) : (l.filter fun k => k.tag = ⟨"", "namespace"⟩).filter
    (fun c => strAttr c (.other "prefix") = some p) = l.filter (declares p) := by
  rw [List.filter_filter]
  congr 1
  funext k
  unfold declares
  by_cases h1 : k.tag = ⟨"", "namespace"⟩ <;> by_cases h2 : strAttr k (.other "prefix") = some p <;> simp [h1, h2]

/-! ## Names -/

theorem nameStr_ok {m : Model} {e : Elem} :
    (∃ n, nameStr m e = .ok n) ↔ (∃ t, strAttr e (.other "type") = some t) ∧ KnownNs m e.tag.ns := by
  unfold nameStr KnownNs urlToPrefix typ
  by_cases h0 : e.tag.ns = ""
  · rw [if_pos h0]
    cases strAttr e (.other "type") with
    | none => simp [bind, Except.bind]
    | some t => simp [bind, Except.bind, pure, Except.pure, h0]
  · rw [if_neg h0]
    have hk : m.urls.lookup (some e.tag.ns) ≠ none ↔ ∃ p, (p, some e.tag.ns) ∈ m.prefixes := by
      unfold Model.urls
      rw [dictOf_ne]
      constructor
      · rintro ⟨v, hv⟩
        obtain ⟨x, hx, h⟩ := List.mem_map.1 hv
        obtain ⟨a, b⟩ := x
        cases h
        exact ⟨_, hx⟩
      · rintro ⟨p, hp⟩
        exact ⟨p, List.mem_map.2 ⟨_, hp, rfl⟩⟩
    rw [← hk]
    cases m.urls.lookup (some e.tag.ns) with
    | none => simp [bind, Except.bind, h0]
    | some p =>
      cases strAttr e (.other "type") with
      | none => simp [bind, Except.bind]
      | some t => simp [bind, Except.bind, pure, Except.pure]

theorem colon_split {a b c d : List Char} (ha : ':' ∉ a) (hc : ':' ∉ c) (h : a ++ ':' :: b = c ++ ':' :: d) : a = c ∧ b = d := by
  have h1 := cut_eq (c := ':') (b := b) ha
  rw [h, cut_eq hc] at h1
  exact ⟨(Prod.mk.inj h1).1.symm, (Prod.mk.inj h1).2.symm⟩

theorem prefixes_unique {m : Model} (hm : Made m) {p : String} {u v : Option String} (h1 : (p, u) ∈ m.prefixes)
    (h2 : (p, v) ∈ m.prefixes) : u = v := by
  have a := lookup_of_mem hm.keys h1
  rw [lookup_of_mem hm.keys h2] at a
  exact (Option.some.inj a).symm

/-- Different nodes have different names. -/
theorem nameShown_inj {m : Model} (hm : Made m) (hp : PlainPrefixes m) {q q' : QName} (hq : Ident q.name.toList)
    (hq' : Ident q'.name.toList) {n : List Char} (h : NameShown m q n) (h' : NameShown m q' n) : q = q' := by
  obtain ⟨p, h1, h2⟩ := h
  obtain ⟨p', h1', h2'⟩ := h'
  have np := ident_no (hp.ident _ _ h1) (c := ':') (.inr rfl)
  have np' := ident_no (hp.ident _ _ h1') (c := ':') (.inr rfl)
  have nq := ident_no hq (c := ':') (.inr rfl)
  have nq' := ident_no hq' (c := ':') (.inr rfl)
  obtain ⟨e1, e2⟩ : p = p' ∧ q.name.toList = q'.name.toList := by
    rcases h2 with ⟨rfl, rfl⟩ | ⟨h2, rfl⟩ <;> rcases h2' with ⟨rfl, h3⟩ | ⟨h2', h3⟩
    · exact ⟨rfl, h3⟩
    · exact absurd (h3 ▸ (by simp : ':' ∈ p'.toList ++ ':' :: q'.name.toList)) nq
    · exact absurd (h3 ▸ (by simp : ':' ∈ p.toList ++ ':' :: q.name.toList)) nq'
    · obtain ⟨a, b⟩ := colon_split np np' h3
      exact ⟨String.toList_inj.1 a, b⟩
  subst e1
  obtain ⟨ns, name⟩ := q
  obtain ⟨ns', name'⟩ := q'
  have := prefixes_unique hm h1 h1'
  cases this
  exact congrArg _ (String.toList_inj.1 e2)

theorem splitOn_none {c : Char} : ∀ {l : List Char}, c ∉ l → splitOn c l = [l]
  | [], _ => rfl
  | x :: l, h => by
    have h1 : x ≠ c := fun e => h (e ▸ .head _)
    have h2 : c ∉ l := fun e => h (.tail _ e)
    rw [splitOn, if_neg h1, splitOn_none h2]

theorem splitOn_one {c : Char} : ∀ {a b : List Char}, c ∉ a → c ∉ b → splitOn c (a ++ c :: b) = [a, b]
  | [], b, _, hb => by rw [List.nil_append, splitOn, if_pos rfl, splitOn_none hb]
  | x :: a, b, h, hb => by
    have h1 : x ≠ c := fun e => h (e ▸ .head _)
    have h2 : c ∉ a := fun e => h (.tail _ e)
    rw [List.cons_append, splitOn, if_neg h1, splitOn_one h2 hb]

/-- The name shown leads back to the tag. -/
theorem prefixToUrl_shown {m : Model} (hm : Made m) (hp : PlainPrefixes m) {q : QName} (hq : Ident q.name.toList)
    {n : List Char} (h : NameShown m q n) : prefixToUrl m n = .ok ('{' :: q.ns.toList ++ '}' :: q.name.toList) := by
  obtain ⟨p, h1, h2⟩ := h
  have nq := ident_no hq (c := ':') (.inr rfl)
  rcases h2 with ⟨rfl, rfl⟩ | ⟨_, rfl⟩
  · have hu := hm.own
    rw [lookup_of_mem hm.keys h1] at hu
    unfold prefixToUrl
    rw [splitOn_none nq]
    show braced m.url _ = _
    rw [← Option.some.inj hu]
    rfl
  · have np := ident_no (hp.ident _ _ h1) (c := ':') (.inr rfl)
    unfold prefixToUrl
    rw [splitOn_one np nq]
    show (match m.prefixes.lookup (String.ofList p.toList) with
      | none => Except.error Err.keyError
      | some u => braced u q.name.toList) = _
    rw [String.ofList_toList, lookup_of_mem hm.keys h1]
    rfl

/-! ## Same texts -/

mutual
theorem twins_of {R1 R2 : Nat → Elem → List Char → Prop} {S : Elem → Elem → Prop}
    (hS : ∀ c c' e f l, R1 c e l → R2 c' f l → S e f) : ∀ {c c' e f t}, Depicts R1 c e t → Depicts R2 c' f t → Twins S e f
  | _, _, _, _, _, .mk h1 h2, .mk h1' h2' => .mk (hS _ _ _ _ _ h1 h1') (twinsAll_of hS h2 h2')
theorem twinsAll_of {R1 R2 : Nat → Elem → List Char → Prop} {S : Elem → Elem → Prop}
    (hS : ∀ c c' e f l, R1 c e l → R2 c' f l → S e f) : ∀ {c c' es fs ts}, Forest R1 c es ts → Forest R2 c' fs ts →
    TwinsAll S es fs
  | _, _, _, _, _, .nil, .nil => .nil
  | _, _, _, _, _, .cons h1 h2, .cons h1' h2' => .cons (twins_of hS h1 h1') (twinsAll_of hS h2 h2')
end

theorem sameShown_of {m1 m2 : Model} {c c' : Nat} {e f : Elem} {l : List Char} (h1 : Tells m1 c e l) (h2 : Tells m2 c' f l) :
    SameShown m1 m2 e f := by
  obtain ⟨⟨n, hn, hr⟩, _⟩ := h1
  obtain ⟨⟨n', hn', hr'⟩, _⟩ := h2
  rw [hr] at hr'
  simp only [Reading.mk.injEq] at hr'
  obtain ⟨a, _, rfl, d, e1, f1, g⟩ := hr'
  refine ⟨a, ⟨n, hn, hn'⟩, d, e1, f1, ?_⟩
  exact Option.map_injective (fun _ _ h => String.toList_inj.1 h) g

/-! ## Texts of trees -/

theorem emitTree_drawn {p : Printer} {R : Nat → Elem → List Char → Prop} {t : Elem} (Q : Elem → Prop)
    (hR : ∀ sibs e l, e ∈ sibs → Q e → Lab p sibs e l → R (column p sibs) e l) (hQ : ∀ path e, path ≠ [] → At t path e → Q e)
    {s : List Char} (h : emitTree p t = .ok s) : ∃ col d r o, s = joined (page t.tag.clark d r o) ∧
      Forest R col (dataNodes t.kids) d ∧ Forest R col (rpcNodes t.kids) r ∧ Forest R col (noteNodes t.kids) o := by
  unfold emitTree at h
  cases hl : emitLines p t with
  | error x => rw [hl] at h; cases h
  | ok ls =>
    rw [hl] at h
    obtain rfl := Except.ok.inj h
    obtain ⟨d, r, o, hd, hr, ho, rfl⟩ := emitLines_eq hl
    have key : ∀ {es : List Elem} {ts : List LTree}, (∀ e ∈ es, e ∈ t.kids) → LabelsAll p t.kids es ts →
        Forest R (column p t.kids) es ts := fun hs h =>
      forest_of_labels Q hR hs (fun e he path x hx => hQ (e.tag :: path) x (by simp) (.down (hs e he) hx)) h
    exact ⟨column p t.kids, d, r, o, rfl, key (fun e he => (List.mem_filter.1 he).1) hd,
      key (fun e he => (List.mem_filter.1 he).1) hr, key (fun e he => (List.mem_filter.1 he).1) ho⟩

theorem emitTree_ok {p : Printer} {t : Elem} :
    (∃ s, emitTree p t = .ok s) ↔ ∀ path x, path ≠ [] → At t path x → ∃ n, p.name x = .ok n := by
  rw [← emitLines_ok]
  unfold emitTree
  constructor
  · rintro ⟨s, h⟩
    cases hl : emitLines p t with
    | error x => rw [hl] at h; cases h
    | ok ls => exact ⟨ls, rfl⟩
  · rintro ⟨ls, h⟩
    exact ⟨joined ls, by rw [h]; rfl⟩

/-! ## Differences -/

/-- Where the nodes of a difference come from. -/
theorem origin_of_at {p} : ∀ {a b d n : Elem}, p ≠ [] → SchemaTree a → SchemaTree b → IsDiff a b d → At d p n →
    ∃ n0 msg, n.tag = n0.tag ∧ n.attrs = processAttrs msg n0.attrs ∧
      ((msg = "added" ∧ At b p n0) ∨ (msg = "deleted" ∧ At a p n0) ∨
        ((msg = "modified" ∨ msg = "") ∧ At b p n0 ∧ ∃ n1, At a p n1 ∧ n1.tag = n0.tag)) := by
  induction p with
  | nil => intro a b d n h; exact absurd rfl h
  | cons t p ih =>
    intro a b d n _ ha hb hd hat
    obtain ⟨k, hk, rfl, hn⟩ := at_cons.mp hat
    clear hat
    cases (hd k).mp hk with
    | @added c hc hnone =>
      rw [tag_processAttrib]
      obtain ⟨n0, h0, rfl⟩ := at_processAttrib.mp hn
      exact ⟨n0, _, tag_processAttrib _ _, attrs_processAttrib _ _, .inl ⟨rfl, .down hc h0⟩⟩
    | @deleted c hc hnone =>
      rw [tag_processAttrib]
      obtain ⟨n0, h0, rfl⟩ := at_processAttrib.mp hn
      exact ⟨n0, _, tag_processAttrib _ _, attrs_processAttrib _ _, .inr (.inl ⟨rfl, .down hc h0⟩)⟩
    | @modified c q hc hq ht hE hl =>
      cases p with
      | cons t p => obtain ⟨k, hk, -⟩ := at_cons.mp hn; cases hk
      | nil =>
        obtain rfl := at_nil.mp hn
        exact ⟨c, _, rfl, rfl, .inr (.inr ⟨.inl rfl, show At b [c.tag] c from .down hc .here, q,
          show At a [c.tag] q from ht ▸ .down hq .here, ht⟩)⟩
    | @inner c q sub hc hq ht hE hl hs =>
      have hsub := isDiff_inner (ha.kid hq) (hb.kid hc) hs
      cases p with
      | nil =>
        obtain rfl := at_nil.mp hn
        exact ⟨c, _, rfl, rfl, .inr (.inr ⟨.inr rfl, show At b [c.tag] c from .down hc .here, q,
          show At a [c.tag] q from ht ▸ .down hq .here, ht⟩)⟩
      | cons t p =>
        obtain ⟨n0, msg, h1, h2, h3⟩ := ih (by simp) (ha.kid hq) (hb.kid hc) hsub hn
        refine ⟨n0, msg, h1, h2, ?_⟩
        show (_ ∧ At b (c.tag :: t :: p) n0) ∨ (_ ∧ At a (c.tag :: t :: p) n0) ∨
          (_ ∧ At b (c.tag :: t :: p) n0 ∧ ∃ n1, At a (c.tag :: t :: p) n1 ∧ n1.tag = n0.tag)
        rcases h3 with ⟨e, h⟩ | ⟨e, h⟩ | ⟨e, h, n1, h', e'⟩
        · exact .inl ⟨e, .down hc h⟩
        · exact .inr (.inl ⟨e, ht ▸ .down hq h⟩)
        · exact .inr (.inr ⟨e, .down hc h, n1, (show At a (c.tag :: t :: p) n1 from ht ▸ .down hq h'), e'⟩)

theorem lookup_processAttrs {msg : String} {a : Attrs} {n : AName} (hn : n ∈ knownAttrib) :
    (processAttrs msg a).lookup n = a.lookup n := by
  have key : (a.filter fun p => knownAttrib.contains p.1).lookup n = a.lookup n := by
    rw [lookup_filter (keep := true) a fun v => by simpa using hn]
    rfl
  have hne : n ≠ .other "diff" := by rintro rfl; exact absurd hn (by decide)
  unfold processAttrs
  split
  · exact key
  · rw [lookup_setA_other _ hne]
    exact key

theorem strAttr_congr {e f : Elem} {n : AName} (h : e.get n = f.get n) : strAttr e n = strAttr f n := by
  unfold strAttr; rw [h]

theorem origin_attr {n n0 : Elem} {msg : String} (h : n.attrs = processAttrs msg n0.attrs) {k : AName} (hk : k ∈ knownAttrib) :
    strAttr n k = strAttr n0 k :=
  strAttr_congr (by unfold Elem.get; rw [h, lookup_processAttrs hk])

theorem origin_diff {n n0 : Elem} {msg : String} (h : n.attrs = processAttrs msg n0.attrs) :
    strAttr n (.other "diff") = if msg = "" then none else some msg := by
  unfold strAttr Elem.get
  rw [h, diff_processAttrs]
  by_cases hm : msg = ""
  · rw [if_pos hm, if_pos hm]
  · rw [if_neg hm, if_neg hm]

theorem solid_marks {v : String} (h : v = "added" ∨ v = "deleted" ∨ v = "modified") : Solid '{' v.toList := by
  rcases h with rfl | rfl | rfl <;> exact ⟨by decide, by decide, by decide, by decide, by decide⟩

theorem readable_origin {n n0 : Elem} {msg : String} (ht : n.tag = n0.tag) (h : n.attrs = processAttrs msg n0.attrs)
    (hm : msg = "" ∨ msg = "added" ∨ msg = "deleted" ∨ msg = "modified") (hr : Readable n0) : Readable n where
  ident := ht ▸ hr.ident
  ns := ht ▸ hr.ns
  key := by rw [origin_attr h (by decide)]; exact hr.key
  type := by rw [origin_attr h (by decide)]; exact hr.type
  feature := by rw [origin_attr h (by decide)]; exact hr.feature
  diff := by
    rw [origin_diff h]
    rcases hm with rfl | hm
    · intro v hv; simp at hv
    · intro v hv
      split at hv
      · cases hv
      · cases hv; exact solid_marks hm

/-- The nodes of a view are nodes of the difference. -/
theorem at_trim {msg : String} {p} : ∀ {e n : Elem}, At (trim msg e) p n → ∃ n0, At e p n0 ∧ n.tag = n0.tag ∧ n.attrs = n0.attrs := by
  induction p with
  | nil =>
    intro e n h
    obtain rfl := at_nil.mp h
    exact ⟨e, .here, tag_trim _ _, by cases e; rfl⟩
  | cons t p ih =>
    intro e n h
    obtain ⟨k, hk, rfl, hn⟩ := at_cons.mp h
    rw [kids_trim, trimKids_mem] at hk
    obtain ⟨c, hc, _, ⟨_, rfl, _⟩ | ⟨_, rfl⟩⟩ := hk
    · obtain ⟨n0, h0, h1⟩ := ih hn
      rw [tag_trim]
      exact ⟨n0, .down hc h0, h1⟩
    · exact ⟨n, .down hc hn, rfl, rfl⟩

end NcDiff.Show
