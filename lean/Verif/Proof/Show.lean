import Verif.Spec.Show
import Verif.Proof.Tree
/-! # Drawings of models -/

namespace NcDiff.Show

open ModelDiff Compile

/-! ## Drawings are read uniquely -/

mutual
/-- Induction on trees of texts. -/
theorem LTree.ind {P : LTree → Prop} (h : ∀ l ts, (∀ t ∈ ts, P t) → P (.node l ts)) : ∀ t, P t
  | .node l ts => h l ts (LTree.inds h ts)
theorem LTree.inds {P : LTree → Prop} (h : ∀ l ts, (∀ t ∈ ts, P t) → P (.node l ts)) : ∀ ts : List LTree, ∀ t ∈ ts, P t
  | [], _, ht => nomatch ht
  | t :: ts, x, hx => (List.mem_cons.1 hx).elim (fun e => e ▸ LTree.ind h t) (LTree.inds h ts x)
end

/-- The piece of a rail. -/
def rail (last : Bool) : List Char := (if last then "   " else "|  ").toList

theorem rail_length (b : Bool) : (rail b).length = 3 := by cases b <;> rfl

theorem rail_ne (b : Bool) : rail b ≠ "+--".toList := by cases b <;> decide

theorem drawTree_eq (pre : List Char) (last : Bool) (l : List Char) (ks : List LTree) :
    drawTree pre last (.node l ks) = (pre ++ "+--".toList ++ l) :: draw (pre ++ rail last) ks := by
  rw [drawTree]; rfl

/-- Lines of a drawing begin with the given rails. -/
theorem draw_prefix : ∀ (t : LTree) (pre : List Char) (last : Bool), ∀ x ∈ drawTree pre last t, pre <+: x := by
  intro t
  induction t using LTree.ind with
  | h l ts ih =>
    intro pre last x hx
    rw [drawTree_eq] at hx
    rcases List.mem_cons.1 hx with rfl | hx
    · rw [List.append_assoc]; exact List.prefix_append _ _
    · have : ∀ ts', (∀ t ∈ ts', ∀ (pre : List Char) (last : Bool), ∀ x ∈ drawTree pre last t, pre <+: x) →
          ∀ x ∈ draw (pre ++ rail last) ts', pre ++ rail last <+: x := by
        intro ts'
        induction ts' with
        | nil => intro _ x hx; simp [draw] at hx
        | cons t r ih2 =>
          intro h x hx
          rw [draw, List.mem_append] at hx
          rcases hx with hx | hx
          · exact h t (.head _) _ _ x hx
          · exact ih2 (fun t ht => h t (.tail _ ht)) x hx
      exact (List.prefix_append _ _).trans (this ts ih x hx)

theorem draws_prefix {pre : List Char} : ∀ {ts : List LTree}, ∀ x ∈ draw pre ts, pre <+: x
  | [], x, hx => by simp [draw] at hx
  | t :: r, x, hx => by
    rw [draw, List.mem_append] at hx
    rcases hx with hx | hx
    · exact draw_prefix t _ _ x hx
    · exact draws_prefix x hx

/-- A line is the line of a node at this level. -/
def starts (pre x : List Char) : Bool := (pre ++ "+--".toList).isPrefixOf x

theorem starts_below {pre : List Char} {b : Bool} {x : List Char} (h : pre ++ rail b <+: x) : starts pre x = false := by
  rw [Bool.eq_false_iff]
  intro hs
  have h2 : pre ++ "+--".toList <+: x := List.isPrefixOf_iff_prefix.1 hs
  have := List.prefix_of_prefix_length_le h h2 (by simp [rail_length])
  have := this.eq_of_length (by simp [rail_length])
  exact rail_ne b (List.append_cancel_left this)

theorem split_unique {P : List Char → Bool} {a a' b b' : List (List Char)} (h : a ++ b = a' ++ b')
    (ha : ∀ x ∈ a, P x = false) (ha' : ∀ x ∈ a', P x = false) (hb : ∀ x ∈ b.head?, P x = true)
    (hb' : ∀ x ∈ b'.head?, P x = true) : a = a' ∧ b = b' := by
  induction a generalizing a' with
  | nil =>
    cases a' with
    | nil => exact ⟨rfl, h⟩
    | cons x a' =>
      rw [List.nil_append] at h
      rw [h] at hb
      exact absurd (hb x rfl) (by simp [ha' x (.head _)])
  | cons y a ih =>
    cases a' with
    | nil =>
      rw [List.nil_append] at h
      rw [← h] at hb'
      exact absurd (hb' y rfl) (by simp [ha y (.head _)])
    | cons x a' =>
      rw [List.cons_append, List.cons_append, List.cons.injEq] at h
      obtain ⟨rfl, h⟩ := h
      obtain ⟨rfl, rfl⟩ := ih h (fun x hx => ha x (.tail _ hx)) (fun x hx => ha' x (.tail _ hx))
      exact ⟨rfl, rfl⟩

theorem draw_head {pre : List Char} {ts : List LTree} : ∀ x ∈ (draw pre ts).head?, starts pre x = true := by
  cases ts with
  | nil => intro x hx; simp [draw] at hx
  | cons t r =>
    cases t with
    | node l ks =>
      intro x hx
      rw [draw, drawTree_eq] at hx
      simp only [List.cons_append, List.head?_cons, Option.mem_def, Option.some.injEq] at hx
      subst hx
      exact List.isPrefixOf_iff_prefix.2 (by rw [List.append_assoc]; simp)

theorem draw_nil {pre : List Char} {ts : List LTree} : draw pre ts = [] ↔ ts = [] := by
  cases ts with
  | nil => simp [draw]
  | cons t r => cases t; rw [draw, drawTree_eq]; simp

/-- Two forests with the same drawing are the same. -/
theorem draw_inj : ∀ {ts ts' : List LTree} {pre : List Char}, draw pre ts = draw pre ts' → ts = ts' := by
  have key : ∀ t : LTree, ∀ (pre : List Char) (t' : LTree) (r r' : List LTree),
      draw pre (t :: r) = draw pre (t' :: r') → t = t' ∧ draw pre r = draw pre r' := by
    intro t
    induction t using LTree.ind with
    | h l ks ih =>
      intro pre t' r r' h
      cases t' with
      | node l' ks' =>
        rw [draw, draw, drawTree_eq, drawTree_eq, List.cons_append, List.cons_append, List.cons.injEq] at h
        obtain ⟨h1, h2⟩ := h
        have hl : l = l' := List.append_cancel_left h1
        obtain ⟨h3, h4⟩ := split_unique (P := starts pre) h2 (fun x hx => starts_below (draws_prefix x hx))
          (fun x hx => starts_below (draws_prefix x hx)) draw_head draw_head
        have hr : r.isEmpty = r'.isEmpty := by
          rw [Bool.eq_iff_iff, List.isEmpty_iff, List.isEmpty_iff, ← draw_nil (pre := pre), h4, draw_nil]
        rw [hr] at h3
        have hks : ∀ (ks ks' : List LTree), (∀ t ∈ ks, ∀ (pre : List Char) (t' : LTree) (r r' : List LTree),
            draw pre (t :: r) = draw pre (t' :: r') → t = t' ∧ draw pre r = draw pre r') →
            draw (pre ++ rail r'.isEmpty) ks = draw (pre ++ rail r'.isEmpty) ks' → ks = ks' := by
          intro ks
          induction ks with
          | nil =>
            intro ks' _ h
            rw [draw] at h
            exact (draw_nil.1 h.symm).symm
          | cons k ks ihk =>
            intro ks' hk h
            cases ks' with
            | nil => rw [draw_nil.1 (h.trans (by rw [draw]))]
            | cons k' ks' =>
              obtain ⟨rfl, h'⟩ := hk k (.head _) _ _ _ _ h
              rw [ihk ks' (fun t ht => hk t (.tail _ ht)) h']
        rw [hl, hks ks ks' ih h3]
        exact ⟨rfl, h4⟩
  intro ts
  induction ts with
  | nil => intro ts' pre h; rw [draw] at h; exact (draw_nil.1 h.symm).symm
  | cons t r ih =>
    intro ts' pre h
    cases ts' with
    | nil => exact draw_nil.1 (h.trans (by rw [draw]))
    | cons t' r' =>
      obtain ⟨rfl, h'⟩ := key t pre t' r r' h
      rw [ih h']

/-- Two pages are the same only if they have the same name and trees. -/
theorem page_inj {n n' : List Char} {d d' r r' o o' : List LTree} (h : page n d r o = page n' d' r' o') :
    n = n' ∧ d = d' ∧ r = r' ∧ o = o' := by
  unfold page at h
  rw [List.cons.injEq] at h
  obtain ⟨h1, h2⟩ := h
  have hd : ∀ {ts : List LTree}, ∀ x ∈ draw "    ".toList ts, (x = [] ∨ x = "  rpcs:".toList ∨ x = "  notifications:".toList) → False := by
    intro ts x hx hc
    have := draws_prefix x hx
    rcases hc with rfl | rfl | rfl <;> revert this <;> decide
  have hempty : ∀ {ts : List LTree}, ∀ x ∈ draw "    ".toList ts, (fun x : List Char => x.isEmpty) x = false := by
    intro ts x hx
    cases x with
    | nil => exact absurd (hd _ hx (.inl rfl)) id
    | cons => rfl
  have hpart : ∀ (a b : String) (r o : List LTree), ∀ x ∈ (part a r ++ part b o).head?, (fun x : List Char => x.isEmpty) x = true := by
    intro a b r o x hx
    cases r with
    | cons => cases hx; rfl
    | nil =>
      cases o with
      | cons => cases hx; rfl
      | nil => simp [part] at hx
  rw [List.append_assoc, List.append_assoc] at h2
  obtain ⟨h3, h4⟩ := split_unique h2 hempty hempty (hpart _ _ _ _) (hpart _ _ _ _)
  refine ⟨List.append_cancel_left h1, draw_inj h3, ?_⟩
  have hp : ∀ (a : String) (o : List LTree), ∀ x ∈ (part a o).head?, (fun x : List Char => x.isEmpty) x = true := by
    intro a o x hx
    have := hpart a a o [] x (by simpa [part] using hx)
    exact this
  have tail : ∀ {o o' : List LTree}, part "  notifications:" o = part "  notifications:" o' → o = o' := by
    intro o o' h
    cases o with
    | nil => cases o' with
      | nil => rfl
      | cons => cases h
    | cons t o => cases o' with
      | nil => cases h
      | cons t' o' =>
        rw [part, part] at h
        exact draw_inj (List.cons.inj (List.cons.inj h).2).2
  have ne : "  rpcs:".toList ≠ "  notifications:".toList := by decide
  cases r with
  | nil =>
    cases r' with
    | nil => exact ⟨rfl, tail (by simpa [part] using h4)⟩
    | cons t' r' =>
      exfalso
      cases o with
      | nil => cases h4
      | cons t o =>
        rw [part, part, part, List.nil_append] at h4
        exact ne (List.cons.inj (List.cons.inj h4).2).1.symm
  | cons t r =>
    cases r' with
    | nil =>
      exfalso
      cases o' with
      | nil => cases h4
      | cons t' o' =>
        rw [part, part, part, List.nil_append] at h4
        exact ne (List.cons.inj (List.cons.inj h4).2).1
    | cons t' r' =>
      rw [part, part] at h4
      simp only [List.cons_append, List.cons.injEq, true_and] at h4
      obtain ⟨h5, h6⟩ := split_unique h4 hempty hempty (hp _ _) (hp _ _)
      exact ⟨draw_inj h5, tail h6⟩

/-! ## Lines and the text -/

theorem joined_inj : ∀ {a b : List (List Char)}, a ≠ [] → b ≠ [] → (∀ x ∈ a, '\n' ∉ x) → (∀ x ∈ b, '\n' ∉ x) →
    joined a = joined b → a = b
  | [x], [y], _, _, _, _, h => by simpa [joined] using h
  | [x], y :: z :: r, _, _, ha, _, h => by
    exfalso
    rw [joined, joined] at h
    · exact ha x (.head _) (by rw [h]; simp)
    · simp
  | x :: z :: r, [y], _, _, _, hb, h => by
    exfalso
    rw [joined, joined] at h
    · exact hb y (.head _) (by rw [← h]; simp)
    · simp
  | x :: x2 :: r, y :: y2 :: r', _, _, ha, hb, h => by
    have j1 : joined (x :: x2 :: r) = x ++ '\n' :: joined (x2 :: r) := by rw [joined]; simp
    have j2 : joined (y :: y2 :: r') = y ++ '\n' :: joined (y2 :: r') := by rw [joined]; simp
    rw [j1, j2] at h
    · have : ∀ (u v : List Char) (s t : List Char), '\n' ∉ u → '\n' ∉ v → u ++ '\n' :: s = v ++ '\n' :: t → u = v ∧ s = t := by
        intro u
        induction u with
        | nil =>
          intro v s t _ hv h
          cases v with
          | nil => exact ⟨rfl, by simpa using h⟩
          | cons c v =>
            rw [List.nil_append, List.cons_append, List.cons.injEq] at h
            exact absurd (h.1 ▸ List.mem_cons_self) hv
        | cons d u ih =>
          intro v s t hu hv h
          cases v with
          | nil =>
            rw [List.nil_append, List.cons_append, List.cons.injEq] at h
            exact absurd (h.1 ▸ List.mem_cons_self) hu
          | cons c v =>
            rw [List.cons_append, List.cons_append, List.cons.injEq] at h
            obtain ⟨e1, e2⟩ := ih v s t (fun hm => hu (.tail _ hm)) (fun hm => hv (.tail _ hm)) h.2
            exact ⟨by rw [h.1, e1], e2⟩
      obtain ⟨e1, e2⟩ := this x y _ _ (ha x (.head _)) (hb y (.head _)) h
      rw [e1, joined_inj (a := x2 :: r) (b := y2 :: r') (by simp) (by simp) (fun z hz => ha z (.tail _ hz))
        (fun z hz => hb z (.tail _ hz)) e2]
  | [], _, h, _, _, _, _ => absurd rfl h
  | _ :: _, [], _, h, _, _, _ => absurd rfl h

/-! ## What is emitted is a drawing -/

theorem rails_append {ty : String} {f : List Elem} : ∀ (anc : List (List Elem)) (i : Nat),
    rails ty i (anc ++ [f]) = rails ty i anc ++ rails ty (i + anc.length) [f]
  | [], i => by simp [rails]
  | g :: anc, i => by
    have h1 : rails ty i (g :: anc ++ [f]) = rails ty i [g] ++ rails ty (i + 1) (anc ++ [f]) := by simp [rails]
    have h2 : rails ty i (g :: anc) = rails ty i [g] ++ rails ty (i + 1) anc := by simp [rails]
    rw [h1, h2, rails_append anc (i + 1), List.append_assoc, List.length_cons, Nat.add_right_comm i 1, Nat.add_assoc i]

/-- The label and the labels below. -/
def Lab (p : Printer) (sibs : List Elem) (e : Elem) (l : List Char) : Prop := label p sibs e = .ok l

mutual
/-- Each node with its label. -/
inductive Labels (p : Printer) : List Elem → Elem → LTree → Prop
  | mk {sibs e l ts} : Lab p sibs e l → LabelsAll p e.kids e.kids ts → Labels p sibs e (.node l ts)
inductive LabelsAll (p : Printer) : List Elem → List Elem → List LTree → Prop
  | nil {sibs} : LabelsAll p sibs [] []
  | cons {sibs e t es ts} : Labels p sibs e t → LabelsAll p sibs es ts → LabelsAll p sibs (e :: es) (t :: ts)
end

theorem labelsAll_isEmpty {p : Printer} {sibs es : List Elem} {ts : List LTree} (h : LabelsAll p sibs es ts) :
    ts.isEmpty = es.isEmpty := by cases h <;> rfl

theorem emitNode_eq {p : Printer} {ty : String} : ∀ (e : Elem) {anc : List (List Elem)} {sibs fol : List Elem}
    {ls : List (List Char)}, 1 ≤ anc.length → emitNode p ty anc sibs fol e = .ok ls →
    ∃ t, Labels p sibs e t ∧ ls = drawTree (' ' :: rails ty 0 anc)
      (if anc.length = 1 then (fol.filter (isType ty)).isEmpty else fol.isEmpty) t := by
  intro e
  induction e using Elem.ind with
  | h tg n a x ks ih =>
    intro anc sibs fol ls hlen h
    rw [emitNode] at h
    obtain ⟨l, hl, h⟩ := bind_ok.1 h
    obtain ⟨r, hr, h⟩ := bind_ok.1 h
    obtain rfl := Except.ok.inj h
    have hk : ∀ (es : List Elem), (∀ k ∈ es, k ∈ ks) → ∀ {ls}, emitKids p ty (anc ++ [fol]) ks es = .ok ls →
        ∃ ts, LabelsAll p ks es ts ∧ ls = draw (' ' :: rails ty 0 (anc ++ [fol])) ts := by
      intro es
      induction es with
      | nil =>
        intro _ ls h
        rw [emitKids] at h
        obtain rfl := Except.ok.inj h
        exact ⟨[], .nil, by rw [draw]⟩
      | cons k es ihe =>
        intro hm ls h
        rw [emitKids] at h
        obtain ⟨u, hu, h⟩ := bind_ok.1 h
        obtain ⟨v, hv, h⟩ := bind_ok.1 h
        obtain rfl := Except.ok.inj h
        obtain ⟨t, ht, rfl⟩ := ih k (hm k (.head _)) (by simp) hu
        obtain ⟨ts, hts, rfl⟩ := ihe (fun k hk => hm k (.tail _ hk)) hv
        refine ⟨t :: ts, .cons ht hts, ?_⟩
        rw [draw, if_neg (by rw [List.length_append, List.length_singleton]; omega), labelsAll_isEmpty hts]
    obtain ⟨ts, hts, rfl⟩ := hk ks (fun _ h => h) hr
    refine ⟨.node l ts, .mk hl hts, ?_⟩
    rw [drawTree_eq]
    congr 1
    congr 1
    rw [rails_append, Nat.zero_add, List.cons_append]
    congr 1
    congr 1
    by_cases h1 : anc.length = 1
    · rw [rails, if_pos h1, rails, List.append_nil, if_pos h1]
      unfold rail
      cases (fol.filter (isType ty)).isEmpty <;> rfl
    · rw [rails, if_neg h1, rails, List.append_nil, if_neg h1]
      unfold rail
      cases fol.isEmpty <;> rfl

theorem emitRoots_eq {p : Printer} {ty : String} {sibs : List Elem} : ∀ (es : List Elem) {ls : List (List Char)},
    emitRoots p ty sibs es = .ok ls →
    ∃ ts, LabelsAll p sibs (es.filter (isType ty)) ts ∧ ls = draw "    ".toList ts
  | [], ls, h => by
    rw [emitRoots] at h
    obtain rfl := Except.ok.inj h
    exact ⟨[], .nil, by rw [draw]⟩
  | k :: es, ls, h => by
    rw [emitRoots] at h
    by_cases ht : isType ty k = true
    · rw [if_pos ht] at h
      obtain ⟨u, hu, h⟩ := bind_ok.1 h
      obtain ⟨v, hv, h⟩ := bind_ok.1 h
      obtain rfl := Except.ok.inj h
      obtain ⟨t, h1, rfl⟩ := emitNode_eq k (by simp) hu
      obtain ⟨ts, h2, rfl⟩ := emitRoots_eq es hv
      refine ⟨t :: ts, by rw [List.filter_cons, if_pos ht]; exact .cons h1 h2, ?_⟩
      rw [draw, if_pos (by simp), labelsAll_isEmpty h2]
      rfl
    · rw [if_neg ht] at h
      obtain ⟨ts, h2, rfl⟩ := emitRoots_eq es h
      exact ⟨ts, by rw [List.filter_cons, if_neg ht]; exact h2, rfl⟩

theorem titled_eq (title : String) (ts : List LTree) : titled title (draw "    ".toList ts) = part title ts := by
  unfold titled
  cases ts with
  | nil => rw [draw, part]; rfl
  | cons t r =>
    have : draw "    ".toList (t :: r) ≠ [] := by rw [Ne, draw_nil]; simp
    rw [part, if_neg (by rw [List.isEmpty_iff]; exact this)]

theorem isType_data (l : List Elem) : l.filter (isType "other") = dataNodes l := by
  unfold dataNodes
  congr 1
  funext e
  simp [isType, isRpc, isNote, typ]

theorem isType_rpc (l : List Elem) : l.filter (isType "rpc") = rpcNodes l := by
  unfold rpcNodes
  congr 1

theorem isType_note (l : List Elem) : l.filter (isType "notification") = noteNodes l := by
  unfold noteNodes
  congr 1

theorem emitLines_eq {p : Printer} {t : Elem} {ls : List (List Char)} (h : emitLines p t = .ok ls) :
    ∃ d r o, LabelsAll p t.kids (dataNodes t.kids) d ∧ LabelsAll p t.kids (rpcNodes t.kids) r ∧
      LabelsAll p t.kids (noteNodes t.kids) o ∧ ls = page t.tag.clark d r o := by
  unfold emitLines emitChildren at h
  obtain ⟨u, hu, h⟩ := bind_ok.1 h
  obtain ⟨v, hv, h⟩ := bind_ok.1 h
  obtain ⟨w, hw, h⟩ := bind_ok.1 h
  obtain rfl := Except.ok.inj h
  obtain ⟨d, hd, rfl⟩ := emitRoots_eq _ hu
  obtain ⟨r, hr, rfl⟩ := emitRoots_eq _ hv
  obtain ⟨o, ho, rfl⟩ := emitRoots_eq _ hw
  rw [isType_data] at hd
  rw [isType_rpc] at hr
  rw [isType_note] at ho
  exact ⟨d, r, o, hd, hr, ho, by rw [titled_eq, titled_eq]; rfl⟩

/-! ## When a model is printed -/

theorem longest_ok {p : Printer} : ∀ {l : List Elem}, (∀ e ∈ l, ∃ n, p.name e = .ok n) → ∃ w, longest p l = .ok w
  | [], _ => ⟨0, rfl⟩
  | k :: r, h => by
    obtain ⟨n, hn⟩ := h k (.head _)
    obtain ⟨w, hw⟩ := longest_ok fun e he => h e (.tail _ he)
    exact ⟨_, by rw [longest, hn, hw]; rfl⟩

theorem label_ok {p : Printer} {sibs : List Elem} {e : Elem} (h : ∀ e ∈ sibs, ∃ n, p.name e = .ok n) (he : e ∈ sibs) :
    ∃ l, label p sibs e = .ok l := by
  obtain ⟨n, hn⟩ := h e he
  obtain ⟨w, hw⟩ := longest_ok h
  unfold label width
  rw [hn, hw]
  cases p.tail e with
  | none => exact ⟨_, rfl⟩
  | some f => exact ⟨_, rfl⟩

theorem emitNode_ok {p : Printer} {ty : String} : ∀ (e : Elem) {anc : List (List Elem)} {sibs fol : List Elem},
    e ∈ sibs → (∀ e ∈ sibs, ∃ n, p.name e = .ok n) → (∀ path x, path ≠ [] → At e path x → ∃ n, p.name x = .ok n) →
    ∃ ls, emitNode p ty anc sibs fol e = .ok ls := by
  intro e
  induction e using Elem.ind with
  | h tg n a x ks ih =>
    intro anc sibs fol he hs hb
    obtain ⟨l, hl⟩ := label_ok hs he
    have hks : ∀ k ∈ ks, ∃ n, p.name k = .ok n := fun k hk => hb [k.tag] k (by simp) (.down hk .here)
    have hk : ∀ (es : List Elem), (∀ k ∈ es, k ∈ ks) → ∃ ls, emitKids p ty (anc ++ [fol]) ks es = .ok ls := by
      intro es
      induction es with
      | nil => intro _; exact ⟨_, by rw [emitKids]⟩
      | cons k es ihe =>
        intro hm
        obtain ⟨u, hu⟩ := ih k (hm k (.head _)) (anc := anc ++ [fol]) (fol := es) (hm k (.head _)) hks
          (fun path x hp hx => hb (k.tag :: path) x (by simp) (.down (hm k (.head _)) hx))
        obtain ⟨v, hv⟩ := ihe fun k hk => hm k (.tail _ hk)
        exact ⟨_, by rw [emitKids, hu, hv]; rfl⟩
    obtain ⟨r, hr⟩ := hk ks fun _ h => h
    exact ⟨_, by rw [emitNode, hl, hr]; rfl⟩

theorem emitRoots_ok {p : Printer} {ty : String} {sibs : List Elem} (hs : ∀ e ∈ sibs, ∃ n, p.name e = .ok n)
    (hb : ∀ k ∈ sibs, ∀ path x, path ≠ [] → At k path x → ∃ n, p.name x = .ok n) : ∀ (es : List Elem), (∀ k ∈ es, k ∈ sibs) →
    ∃ ls, emitRoots p ty sibs es = .ok ls
  | [], _ => ⟨_, by rw [emitRoots]⟩
  | k :: es, hm => by
    obtain ⟨v, hv⟩ := emitRoots_ok hs hb es fun k hk => hm k (.tail _ hk)
    by_cases ht : isType ty k = true
    · obtain ⟨u, hu⟩ := emitNode_ok (ty := ty) k (anc := [[]]) (fol := es) (hm k (.head _)) hs (hb k (hm k (.head _)))
      exact ⟨_, by rw [emitRoots, if_pos ht, hu, hv]; rfl⟩
    · exact ⟨_, by rw [emitRoots, if_neg ht, hv]⟩

theorem label_name {p : Printer} {sibs : List Elem} {e : Elem} {l : List Char} (h : Lab p sibs e l) :
    ∃ n, p.name e = .ok n := by
  obtain ⟨n, hn, _⟩ := bind_ok.1 h
  exact ⟨n, hn⟩

theorem labels_name {p : Printer} : ∀ (e : Elem) {sibs : List Elem} {t : LTree}, Labels p sibs e t →
    ∀ {path x}, At e path x → ∃ n, p.name x = .ok n := by
  intro e
  induction e using Elem.ind with
  | h tg n a x ks ih =>
    intro sibs t h path y hy
    cases h with
    | mk hl hts =>
      cases hy with
      | here => exact label_name hl
      | @down _ k _ _ hk hy =>
        have : ∀ {es : List Elem} {ts : List LTree}, LabelsAll p ks es ts → k ∈ es → ∃ t, Labels p ks k t := by
          intro es
          induction es with
          | nil => intro ts _ h; cases h
          | cons e es ihe =>
            intro ts h hm
            cases h with
            | cons h1 h2 =>
              rcases List.mem_cons.1 hm with rfl | hm
              · exact ⟨_, h1⟩
              · exact ihe h2 hm
        obtain ⟨t, ht⟩ := this hts hk
        exact ih k hk ht hy

theorem labelsAll_mem {p : Printer} {sibs : List Elem} {k : Elem} : ∀ {es : List Elem} {ts : List LTree},
    LabelsAll p sibs es ts → k ∈ es → ∃ t, Labels p sibs k t
  | _, _, .cons h1 h2, hm => by
    rcases List.mem_cons.1 hm with rfl | hm
    · exact ⟨_, h1⟩
    · exact labelsAll_mem h2 hm

theorem emitLines_ok {p : Printer} {t : Elem} :
    (∃ ls, emitLines p t = .ok ls) ↔ ∀ path x, path ≠ [] → At t path x → ∃ n, p.name x = .ok n := by
  constructor
  · rintro ⟨ls, h⟩ path x hp hx
    obtain ⟨d, r, o, hd, hr, ho, _⟩ := emitLines_eq h
    cases hx with
    | here => exact absurd rfl hp
    | @down _ k _ _ hk hx =>
      have hin : k ∈ dataNodes t.kids ∨ k ∈ rpcNodes t.kids ∨ k ∈ noteNodes t.kids := by
        simp only [dataNodes, rpcNodes, noteNodes, List.mem_filter, hk, true_and]
        cases isRpc k <;> cases isNote k <;> simp
      rcases hin with hin | hin | hin
      · obtain ⟨t, ht⟩ := labelsAll_mem hd hin
        exact labels_name k ht hx
      · obtain ⟨t, ht⟩ := labelsAll_mem hr hin
        exact labels_name k ht hx
      · obtain ⟨t, ht⟩ := labelsAll_mem ho hin
        exact labels_name k ht hx
  · intro h
    have hs : ∀ e ∈ t.kids, ∃ n, p.name e = .ok n := fun e he => h [e.tag] e (by simp) (.down he .here)
    have hb : ∀ k ∈ t.kids, ∀ path x, path ≠ [] → At k path x → ∃ n, p.name x = .ok n :=
      fun k hk path x _ hx => h (k.tag :: path) x (by simp) (.down hk hx)
    obtain ⟨u, hu⟩ := emitRoots_ok (ty := "other") hs hb t.kids fun _ h => h
    obtain ⟨v, hv⟩ := emitRoots_ok (ty := "rpc") hs hb t.kids fun _ h => h
    obtain ⟨w, hw⟩ := emitRoots_ok (ty := "notification") hs hb t.kids fun _ h => h
    exact ⟨_, by unfold emitLines emitChildren; rw [hu, hv, hw]; rfl⟩

end NcDiff.Show
