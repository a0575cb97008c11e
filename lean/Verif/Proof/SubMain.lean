import Verif.Proof.SubBoth
/-!
# Computing a delta: the loops, and all levels
-/

namespace NcDiff

variable {ω : Prop}

/-! ## Grouping -/

theorem both_sublist {α β : Type} {f : α → UID} {g : β → UID} {as : List α} {bs : List β} :
    ((groupsOf f g as bs).both.map Prod.fst).Sublist as := by
  show ((as.filterMap (fun a => (bs.find? (fun b => g b = f a)).map (fun b => (a, b)))).map Prod.fst).Sublist as
  induction as with
  | nil => simp
  | cons a r ih =>
    cases h : bs.find? (fun b => g b = f a) with
    | none => simpa [h] using ih.cons _
    | some b => simpa [h] using ih.cons_cons a

theorem group_cases {α β : Type} {f : α → UID} {g : β → UID} {as : List α} {bs : List β} {a : α} (ha : a ∈ as) :
    a ∈ (groupsOf f g as bs).onlyOne ∨ ∃ b, (a, b) ∈ (groupsOf f g as bs).both := by
  unfold groupsOf
  cases h : bs.find? (fun b => g b = f a) with
  | none => exact Or.inl (List.mem_filter.2 ⟨ha, by simp only [h]; rfl⟩)
  | some b => exact Or.inr ⟨b, List.mem_filterMap.2 ⟨a, ha, by simp [h]⟩⟩

theorem mapM_exists {α β : Type} {f : α → Except Err β} : ∀ {l : List α}, (∀ a ∈ l, ∃ b, f a = .ok b) →
    ∃ r, l.mapM f = .ok r
  | [], _ => ⟨[], rfl⟩
  | a :: l, h => by
    obtain ⟨b, hb⟩ := h a (by simp)
    obtain ⟨r, hr⟩ := mapM_exists (l := l) (fun x hx => h x (by simp [hx]))
    exact ⟨b :: r, by rw [List.mapM_cons, hb, hr]; rfl⟩

theorem forall₂_right {α β : Type} {R : α → β → Prop} : ∀ {l : List α} {m : List β}, List.Forall₂ R l m →
    ∀ {b : β}, b ∈ m → ∃ a ∈ l, R a b
  | _, _, .cons h t, b, hb => by
    rcases List.mem_cons.1 hb with rfl | hb
    · exact ⟨_, by simp, h⟩
    · obtain ⟨a, ha, hr⟩ := forall₂_right t hb
      exact ⟨a, by simp [ha], hr⟩

theorem forall₂_left {α β : Type} {R : α → β → Prop} : ∀ {l : List α} {m : List β}, List.Forall₂ R l m →
    ∀ {a : α}, a ∈ l → ∃ b ∈ m, R a b
  | _, _, .cons h t, b, hb => by
    rcases List.mem_cons.1 hb with rfl | hb
    · exact ⟨_, by simp, h⟩
    · obtain ⟨a, ha, hr⟩ := forall₂_left t hb
      exact ⟨a, by simp [ha], hr⟩

/-! ## `ordered_by_user` -/

/-- The entries are right, and no tag is there twice. -/
def ObuOk (d : Device) (sc : Scope) (obu : List (QName × OrderInfo)) : Prop :=
  (obu.map Prod.fst).Nodup ∧ ∀ p ∈ obu, ∃ f, d.lookup sc p.1 = .ok f ∧ f.node.userOrdered = true ∧
    ((f.node.ntype = .leafList ∧ p.2 = none) ∨ (f.node.ntype = .list ∧ p.2 = some f.node.keys))

section
variable {d : Device} {sc : Scope} {obu : List (QName × OrderInfo)} {f : Found} {t : QName}

theorem obuFor_some {info : OrderInfo} (h : obuFor obu t = some info) : (t, info) ∈ obu := by
  unfold obuFor at h
  induction obu with
  | nil => simp at h
  | cons p r ih =>
    rw [List.lookup_cons] at h
    split at h
    · rename_i he
      cases h
      have : t = p.1 := by simpa using he
      subst this; simp
    · exact List.mem_cons_of_mem _ (ih h)

theorem noteOrder_mono (h : obuFor obu t ≠ none) : obuFor (noteOrder f.node obu) t ≠ none := by
  unfold noteOrder
  split
  · split
    · rw [obuFor_append]; simp [h]
    · rw [obuFor_append]; simp [h]
    · exact h
  · exact h

theorem noteOrder_ok (h : ObuOk d sc obu) (hf : d.lookup sc t = .ok f) : ObuOk d sc (noteOrder f.node obu) := by
  have ht := lookup_tag hf
  unfold noteOrder
  split
  · rename_i hu
    have hnot : f.node.tag ∉ obu.map Prod.fst := by
      intro hm
      obtain ⟨p, hp, he⟩ := List.mem_map.1 hm
      have := List.lookup_eq_none_iff.1 (by simpa using hu.2 : obu.lookup f.node.tag = none) p hp
      rw [he] at this
      simp at this
    have key : ∀ info : OrderInfo, ((f.node.ntype = .leafList ∧ info = none) ∨
        (f.node.ntype = .list ∧ info = some f.node.keys)) → ObuOk d sc (obu ++ [(f.node.tag, info)]) := by
      intro info hi
      refine ⟨?_, ?_⟩
      · rw [List.map_append, List.nodup_append]
        refine ⟨h.1, by simp, ?_⟩
        intro a ha b hb
        simp only [List.map_cons, List.map_nil, List.mem_singleton] at hb
        subst hb
        rintro rfl
        exact hnot ha
      · intro p hp
        rcases List.mem_append.1 hp with hp | hp
        · exact h.2 p hp
        · simp only [List.mem_singleton] at hp
          subst hp
          exact ⟨f, by simpa [ht] using hf, hu.1, hi⟩
    split
    · rename_i hn; exact key none (Or.inl ⟨hn, rfl⟩)
    · rename_i hn; exact key _ (Or.inr ⟨hn, rfl⟩)
    · exact h
  · exact h

theorem noteOrder_cover (hf : d.lookup sc t = .ok f) (hu : UserOrdered d sc t) :
    obuFor (noteOrder f.node obu) t ≠ none := by
  obtain ⟨g, hg, h1, h2⟩ := hu
  rw [hf] at hg; cases hg
  have ht := lookup_tag hf
  unfold noteOrder
  by_cases hl : (obu.lookup f.node.tag).isNone = true
  · rw [if_pos ⟨h1, hl⟩]
    rcases h2 with h2 | h2
    · simp only [h2]; rw [obuFor_append]; simp [ht]
    · simp only [h2]; rw [obuFor_append]; simp [ht]
  · rw [if_neg (by rintro ⟨_, h⟩; exact hl h)]
    unfold obuFor
    intro h
    rw [ht, h] at hl
    simp at hl

end

/-! ## The invariant of the loops -/

section
variable {d : Device} {Q : Carried} {sc : Scope} {S T : Elem}

/-- The cases that were seen are those of new children. -/
def ChoicesOk (d : Device) (sc : Scope) (S T : Elem) (m : ChoiceMap) : Prop :=
  ∀ p ∈ m, ∃ k ∈ T.kids, (∀ s ∈ S.kids, uid d sc s ≠ uid d sc k) ∧ ∃ g, d.lookup sc k.tag = .ok g ∧
    g.underCase = true ∧ p.1 = g.path.dropLast.dropLast ∧ p.2 = g.path.dropLast

/-- The children in `todo` are as they were, the others have their outcome. -/
def Inv (ω : Prop) (d : Device) (Q : Carried) (sc : Scope) (S T : Elem) (todo : Nat → Prop) (M : List Elem) (s : SubState) : Prop :=
  ∃ φ, (Rep φ T.kids M s.st ∧ Late T.kids s.st) ∧
    (∀ i k, T.kids[i]? = some k → (todo i → φ i = some k) ∧
      (¬ todo i → ∀ f, d.lookup sc k.tag = .ok f → Outcome ω d Q sc S f k (φ i) ∧
        (UserOrdered d sc k.tag → obuFor s.obu k.tag ≠ none))) ∧
    ObuOk d sc s.obu ∧ ChoicesOk d sc S T s.choices

theorem Inv.init : Inv ω d Q sc S T (fun _ => True) [] { st := T.kids.zipIdx.map (fun p => (some p.2, p.1)) } :=
  ⟨_, ⟨rep_init _, late_init _⟩, fun i k hk => ⟨fun _ => hk, fun h => absurd trivial h⟩, ⟨by simp, by simp⟩, by intro p hp; simp at hp⟩

/-- The child with index `i` stays, as `x`. -/
theorem Inv.set {todo : Nat → Prop} {M : List Elem} {s s' : SubState} (h : Inv ω d Q sc S T todo M s) {i : Nat}
    {k x : Elem} {f : Found} (hi : todo i) (hk : T.kids[i]? = some k) (hf : d.lookup sc k.tag = .ok f)
    (hx : Outcome ω d Q sc S f k (some x)) (hst : s'.st = setCell i x s.st) (hobu : s'.obu = noteOrder f.node s.obu)
    (hch : ChoicesOk d sc S T s'.choices) : Inv ω d Q sc S T (fun j => todo j ∧ j ≠ i) M s' := by
  obtain ⟨φ, hr, hφ, ho, hc⟩ := h
  refine ⟨Function.update φ i (some x), ?_, ?_, by rw [hobu]; exact noteOrder_ok ho hf, hch⟩
  · rw [hst]
    exact ⟨rep_set hr.1 (by rw [(hφ i k hk).1 hi]; simp) x, late_set hr.2 hk hx.stay.tag⟩
  · intro j k' hk'
    rw [hobu]
    refine ⟨fun hj => by rw [Function.update_of_ne hj.2]; exact (hφ j k' hk').1 hj.1, fun hj g hg => ?_⟩
    by_cases hji : j = i
    · subst hji
      rw [hk] at hk'; cases hk'
      rw [hf] at hg; cases hg
      rw [Function.update_self]
      exact ⟨hx, fun hu => noteOrder_cover hf hu⟩
    · rw [Function.update_of_ne hji]
      have := (hφ j k' hk').2 (fun h => hj ⟨h, hji⟩) g hg
      exact ⟨this.1, fun hu => noteOrder_mono (this.2 hu)⟩

/-- The child with index `i` stays as it is. -/
theorem Inv.keep {todo : Nat → Prop} {M : List Elem} {s s' : SubState} (h : Inv ω d Q sc S T todo M s) {i : Nat}
    {k : Elem} {f : Found} (hi : todo i) (hk : T.kids[i]? = some k) (hf : d.lookup sc k.tag = .ok f)
    (hx : Outcome ω d Q sc S f k (some k)) (hst : s'.st = s.st) (hobu : s'.obu = noteOrder f.node s.obu)
    (hch : s'.choices = s.choices) : Inv ω d Q sc S T (fun j => todo j ∧ j ≠ i) M s' := by
  obtain ⟨φ, hr, hφ, ho, hc⟩ := h
  refine ⟨φ, by rw [hst]; exact hr, ?_, by rw [hobu]; exact noteOrder_ok ho hf, by rw [hch]; exact hc⟩
  intro j k' hk'
  rw [hobu]
  refine ⟨fun hj => (hφ j k' hk').1 hj.1, fun hj g hg => ?_⟩
  by_cases hji : j = i
  · subst hji
    rw [hk] at hk'; cases hk'
    rw [hf] at hg; cases hg
    rw [(hφ j k hk).1 hi]
    exact ⟨hx, fun hu => noteOrder_cover hf hu⟩
  · have := (hφ j k' hk').2 (fun h => hj ⟨h, hji⟩) g hg
    exact ⟨this.1, fun hu => noteOrder_mono (this.2 hu)⟩

/-- The child with index `i` goes. -/
theorem Inv.remove {todo : Nat → Prop} {M : List Elem} {s s' : SubState} (h : Inv ω d Q sc S T todo M s) {i : Nat}
    {k : Elem} {f : Found} (hk : T.kids[i]? = some k) (hf : d.lookup sc k.tag = .ok f)
    (hx : Outcome ω d Q sc S f k none) (hst : s'.st = removeCell i s.st) (hobu : s'.obu = noteOrder f.node s.obu)
    (hch : s'.choices = s.choices) : Inv ω d Q sc S T (fun j => todo j ∧ j ≠ i) M s' := by
  obtain ⟨φ, hr, hφ, ho, hc⟩ := h
  refine ⟨Function.update φ i none, ?_, ?_, by rw [hobu]; exact noteOrder_ok ho hf, by rw [hch]; exact hc⟩
  · rw [hst]
    exact ⟨rep_remove hr.1 i, late_remove hr.2 i⟩
  · intro j k' hk'
    rw [hobu]
    refine ⟨fun hj => by rw [Function.update_of_ne hj.2]; exact (hφ j k' hk').1 hj.1, fun hj g hg => ?_⟩
    by_cases hji : j = i
    · subst hji
      rw [hk] at hk'; cases hk'
      rw [hf] at hg; cases hg
      rw [Function.update_self]
      exact ⟨hx, fun hu => noteOrder_cover hf hu⟩
    · rw [Function.update_of_ne hji]
      have := (hφ j k' hk').2 (fun h => hj ⟨h, hji⟩) g hg
      exact ⟨this.1, fun hu => noteOrder_mono (this.2 hu)⟩

/-- A marker is added. -/
theorem Inv.mark {todo : Nat → Prop} {M : List Elem} {s s' : SubState} (h : Inv ω d Q sc S T todo M s)
    {m o : Elem} {f : Found} (hf : d.lookup sc o.tag = .ok f)
    (hst : Ins (none, m) s.st s'.st) (hlate : Late T.kids s.st → Late T.kids s'.st) (hobu : s'.obu = s.obu ∨ s'.obu = noteOrder f.node s.obu)
    (hch : s'.choices = s.choices) : Inv ω d Q sc S T todo (M ++ [m]) s' := by
  obtain ⟨φ, hr, hφ, ho, hc⟩ := h
  refine ⟨φ, ?_, ?_, ?_, by rw [hch]; exact hc⟩
  · refine ⟨?_, hlate hr.2⟩
    obtain ⟨l, r, h1, h2⟩ := hst
    have hr := hr.1
    rw [h2]
    rw [h1] at hr
    exact rep_mark hr
  · intro j k' hk'
    refine ⟨(hφ j k' hk').1, fun hj g hg => ?_⟩
    have := (hφ j k' hk').2 hj g hg
    rcases hobu with hobu | hobu <;> rw [hobu]
    · exact this
    · exact ⟨this.1, fun hu => noteOrder_mono (this.2 hu)⟩
  · rcases hobu with hobu | hobu <;> rw [hobu]
    · exact ho
    · exact noteOrder_ok ho hf

theorem Inv.congr {todo todo' : Nat → Prop} {M : List Elem} {s : SubState} (h : Inv ω d Q sc S T todo M s)
    (ht : ∀ i, i < T.kids.length → (todo i ↔ todo' i)) : Inv ω d Q sc S T todo' M s := by
  obtain ⟨φ, hr, hφ, ho, hc⟩ := h
  refine ⟨φ, hr, ?_, ho, hc⟩
  intro i k hk
  have := ht i (List.getElem?_eq_some_iff.1 hk).1
  exact ⟨fun hj => (hφ i k hk).1 (this.2 hj), fun hj => (hφ i k hk).2 (fun h => hj (this.1 h))⟩

/-! ## One step of each loop -/

/-- The case of the new child `k` is noted. -/
def Notes (d : Device) (sc : Scope) (k : Elem) (s s' : SubState) : Prop :=
  (∀ p ∈ s.choices, p ∈ s'.choices) ∧ ∀ g, d.lookup sc k.tag = .ok g → g.underCase = true →
    (g.path.dropLast.dropLast, g.path.dropLast) ∈ s'.choices

theorem notes {d : Device} {sc : Scope} {k : Elem} {f : Found} {s s' : SubState} (hf : d.lookup sc k.tag = .ok f)
    (h : s'.choices = noteChoice f s.choices) : Notes d sc k s s' := by
  constructor
  · intro p hp
    rw [h]
    unfold noteChoice
    split
    · exact List.mem_cons_of_mem _ hp
    · exact hp
  · intro g hg hu
    rw [hf] at hg
    cases hg
    rw [h, noteChoice, if_pos hu]
    simp

/-- Lines 1078-1121. -/
theorem step_new {opts : Opts} (hfresh : ∀ {f : Found} {k x : Elem}, (opts.diffType = .replace → x = setOp k "replace") →
    (opts.diffType ≠ .replace → freshKid d opts f k = .ok x) → NoAttrs k → Q.fresh f k x) (hT : Side d sc T)
    (hfull : Deep d (FilledLevel d) sc T)
    {todo : Nat → Prop} {M : List Elem} {s : SubState} (h : Inv ω d Q sc S T todo M s) {i : Nat} {k : Elem}
    (hi : todo i) (hk : T.kids[i]? = some k) (habs : ∀ s ∈ S.kids, uid d sc s ≠ uid d sc k) :
    ∃ s', subOnlySelf d sc opts s (k, i) = .ok s' ∧ Notes d sc k s s' ∧ Inv ω d Q sc S T (fun j => todo j ∧ j ≠ i) M s' := by
  have hkm := List.mem_of_getElem? hk
  obtain ⟨f, hf, _⟩ := hT.valid.shape' k hkm
  obtain ⟨m, hm, _⟩ := marker_ok (ω := ω) opts k hT hkm hf (hfull.full hkm hf)
  have hch : ChoicesOk d sc S T (noteChoice f s.choices) := by
    obtain ⟨_, _, _, _, hc⟩ := h
    unfold noteChoice
    split
    · rename_i hu
      intro p hp
      rcases List.mem_cons.1 hp with rfl | hp
      · exact ⟨k, hkm, habs, f, hf, hu, rfl, rfl⟩
      · exact hc p hp
    · exact hc
  have key : ∀ x, NewOk ω d sc f k x → (opts.diffType = .replace → x = setOp k "replace") →
      (opts.diffType ≠ .replace → freshKid d opts f k = .ok x) → Inv ω d Q sc S T (fun j => todo j ∧ j ≠ i) M
        { st := setCell i x s.st, obu := noteOrder f.node s.obu, choices := noteChoice f s.choices } :=
    fun x hx hr hr' => h.set hi hk hf (.new habs hx (hfresh hr hr' (hT.bare.sub' k hkm))) rfl rfl hch
  unfold subOnlySelf
  by_cases hopt : opts.diffType = .replace
  · simp only [hf, hopt, if_true, hm, bind, Except.bind, pure, Except.pure]
    exact ⟨_, rfl, notes hf rfl, key _ (new_op hT hkm hf (Or.inl rfl) (by simp)) (fun _ => rfl) (fun h => absurd hopt h)⟩
  · simp only [hf, hopt, if_false, hm, bind, Except.bind, pure, Except.pure]
    cases hc : opts.create with
    | merge => exact ⟨_, rfl, notes hf rfl, key k (new_self k hT hkm hf) (fun h => absurd h hopt) (fun _ => by simp only [freshKid, hc])⟩
    | replace => exact ⟨_, rfl, notes hf rfl, key _ (new_op hT hkm hf (Or.inl rfl) (by simp)) (fun _ => rfl) (fun _ => by simp only [freshKid, hc])⟩
    | create =>
      obtain ⟨x, hx, hN⟩ := new_create (ω := ω) k hT hkm hf
      simp only [hx]
      exact ⟨_, rfl, notes hf rfl, key x hN (fun h => absurd h hopt) (fun _ => by simp only [freshKid, hc]; exact hx)⟩

theorem lookup_mem {m : ChoiceMap} {a c : List Nat} (h : m.lookup a = some c) : (a, c) ∈ m := by
  induction m with
  | nil => simp at h
  | cons p r ih =>
    rw [List.lookup_cons] at h
    split at h
    · rename_i he
      cases h
      have : a = p.1 := by simpa using he
      subst this; simp
    · exact List.mem_cons_of_mem _ (ih h)

/-- Lines 1122-1169. -/
theorem step_gone {opts : Opts} (hmark : ∀ {f : Found} {s m : Elem}, deleteMarker d opts f s = .ok m → Q.mark f s m) (hS : Side d sc S) (hT : Side d sc T) (hc : CompatW ω d sc S T)
    {todo : Nat → Prop} {M : List Elem} {s : SubState} (h : Inv ω d Q sc S T todo M s) {o : Elem}
    (ho : o ∈ S.kids) (habs : ∀ k ∈ T.kids, uid d sc k ≠ uid d sc o) :
    ∃ s' m f, subOnlyOther d sc opts s o = .ok s' ∧ d.lookup sc o.tag = .ok f ∧ Marked ω d Q sc f o m ∧
      s'.choices = s.choices ∧ Inv ω d Q sc S T todo (M ++ [m]) s' := by
  obtain ⟨f, hf, _⟩ := hS.valid.shape' o ho
  have habs' : Absent d sc T.kids o := fun y hy hs => habs y hy ((hT.valid.same_iff hS.valid hy ho).2 hs)
  obtain ⟨m, hm, hM⟩ := marker_ok (ω := ω) opts o hS ho hf (by
    cases hc with
    | mk _ _ _ _ gone _ => exact gone o ho habs' f hf)
  have hcr : ∃ x, (match opts.create with
    | .create => setCreate d f o
    | _ => pure o) = .ok x := by
    cases opts.create with
    | create =>
      obtain ⟨x, hx, _⟩ := new_create (ω := ω) o hS ho hf
      exact ⟨x, hx⟩
    | merge => exact ⟨_, rfl⟩
    | replace => exact ⟨_, rfl⟩
  obtain ⟨x, hx⟩ := hcr
  have hall : choiceAllows s.choices f = true := by
    obtain ⟨_, _, _, _, hch⟩ := h
    unfold choiceAllows
    split
    · rename_i hu
      cases hl : s.choices.lookup f.path.dropLast.dropLast with
      | none => rfl
      | some c =>
        obtain ⟨k, hk, habs', g, hg, hgu, h1, h2⟩ := hch _ (lookup_mem hl)
        simp only at h1 h2
        simp only [decide_eq_true_eq]
        rw [h2]
        cases hc with
        | mk choice _ _ _ _ _ =>
          refine (choice o ho k hk ?_ ?_ f g hf hg hu hgu h1).symm
          · intro y hy hs
            exact habs y hy ((hT.valid.same_iff hS.valid hy ho).2 hs)
          · intro y hy hs
            exact habs' y hy ((hS.valid.same_iff hT.valid hy hk).2 hs)
    · rfl
  have key : ∀ st, Ins (none, m) s.st st → (Late T.kids s.st → Late T.kids st) →
      Inv ω d Q sc S T todo (M ++ [m]) { s with st := st, obu := noteOrder f.node s.obu } :=
    fun st hst hl => h.mark hf hst hl (Or.inr rfl) rfl
  have hrun : ∃ st, Ins (none, m) s.st st ∧ (Late T.kids s.st → Late T.kids st) ∧
      subOnlyOther d sc opts s o = .ok { s with st := st, obu := noteOrder f.node s.obu } := by
    unfold subOnlyOther
    simp only [hf, hm, hall, if_true, bind, Except.bind, pure, Except.pure]
    have hcre : opts.create = .create → setCreate d f o = .ok x := by
      intro he; rw [he] at hx; exact hx
    cases hcr : opts.create <;> simp only [hcr, true_implies] at hcre ⊢
    case create =>
      simp only [hcre]
      cases hi : insertAfterLast (hasTag o.tag) (none, m) s.st with
      | none => exact ⟨_, Ins.append _ _, fun h => late_append h _, rfl⟩
      | some st => exact ⟨_, ins_insertAfterLast hi, fun h => late_after h hM.tag hi, rfl⟩
    all_goals
      cases hi : insertAfterLast (hasTag o.tag) (none, m) s.st with
      | none => exact ⟨_, Ins.append _ _, fun h => late_append h _, rfl⟩
      | some st => exact ⟨_, ins_insertAfterLast hi, fun h => late_after h hM.tag hi, rfl⟩
  obtain ⟨st, h1, hl, h2⟩ := hrun
  exact ⟨_, m, f, h2, hf, ⟨hM, hmark hm⟩, rfl, key st h1 hl⟩

/-- Lines 1170-1230. -/
theorem step_both {opts : Opts} (hqp : ∀ {f : Found} {s k x : Elem},
      (x = k ∧ (f.node.ntype = .leaf → opts.replace = .replace → parseText d s f.node = parseText d k f.node)) ∨
      (x = setOp k "replace" ∧ opts.replace = .replace ∧ f.node.ntype = .leaf ∧
        parseText d s f.node ≠ parseText d k f.node) → k.attrs = [] → Q.plain f s k x)
    (hkeys : ∀ {sn : SNode} {s k : Elem}, Side d (.node sn) s → Side d (.node sn) k →
      SameConfig d (.node sn) s k → Q.tree (.node sn) s k (k.setKids (k.kids.filter (isKeyKid d sn)))) (hS : Side d sc S) (hT : Side d sc T)
    (hc : CompatW ω d sc S T) {depth : Nat} {fn : SubFn}
    {todo : Nat → Prop} {M : List Elem} {s : SubState} (h : Inv ω d Q sc S T todo M s) {i : Nat} {k o : Elem}
    (hi : todo i) (hk : T.kids[i]? = some k) (ho : o ∈ S.kids) (hu : uid d sc o = uid d sc k)
    (hfn : ∀ f, d.lookup sc k.tag = .ok f → f.node.ntype = .container ∨ f.node.ntype = .list →
      ∃ D, subInner d opts f.node depth (k, fn) o = .ok D ∧ SubOk ω d Q.tree (.node f.node) o k D) :
    ∃ s', subBoth d sc opts depth s (((k, fn), i), o) = .ok s' ∧
      Inv ω d Q sc S T (fun j => todo j ∧ j ≠ i) M s' := by
  have hkm := List.mem_of_getElem? hk
  obtain ⟨f, hf, hkid⟩ := hT.valid.shape' k hkm
  have hot : o.tag = k.tag := tag_of_uid hu
  have hfo : d.lookup sc o.tag = .ok f := by rw [hot]; exact hf
  have hokid := hS.kid ho hfo
  have hplain : ¬ (f.node.ntype = .leafList ∨ f.node.ntype = .list) → s.obu = noteOrder f.node s.obu := by
    intro hn
    unfold noteOrder
    split
    · cases hn' : f.node.ntype <;> simp_all
    · rfl
  have hnu : f.node.userOrdered ≠ true → s.obu = noteOrder f.node s.obu := by
    intro hn
    unfold noteOrder
    rw [if_neg (by rintro ⟨h, _⟩; exact hn h)]
  have hinner : f.node.ntype = .container ∨ f.node.ntype = .list → ¬ SameConfig d (.node f.node) o k →
      ∃ D, subInner d opts f.node depth (k, fn) o = .ok D ∧ BothOk ω d Q sc f o k D := by
    intro hn hne
    obtain ⟨D, hD, hok⟩ := hfn f hf hn
    exact ⟨D, hD, both_tree hS hT ho hkm hu hf hn (hc.full'.full hkm hf) (Or.inl hne) hok⟩
  have hsn := sameNode_iff (hT.sub hkm hf).valid (hS.sub ho hfo).valid hkid.readable hokid.readable
  obtain ⟨b, hb, hbi⟩ := hsn
  have hb' : sameNode d f.node k o = .ok b := hb
  unfold subBoth
  simp only [hf, bind, Except.bind, pure, Except.pure]
  cases hn : f.node.ntype with
  | leaf =>
    simp only
    rw [sameText_ok hkid.readable hokid.readable, parseTextAt_eq, parseTextAt_eq]
    have hpl := hplain (by rw [hn]; simp)
    by_cases hp : parseText d k f.node = parseText d o f.node
    · simp only [hp, decide_true, if_true]
      by_cases hkey : f.node.info.isKey = true
      · simp only [hkey, if_true]
        exact ⟨s, rfl, h.keep hi hk hf (.both ho hu (both_leaf hS hT hc ho hkm hu hf hn (Or.inl rfl) (Or.inl hkey) (hqp (Or.inl ⟨rfl, fun _ _ => hp.symm⟩) (hT.attrs hkm)))) rfl hpl rfl⟩
      · simp only [hkey]
        refine ⟨_, rfl, h.remove hk hf (.out ho hu (same_leaf hS hT ho hkm hu hf hn hp.symm) ?_ ?_) rfl hpl rfl⟩
        · rintro ⟨_, h | h⟩ <;> rw [hn] at h <;> cases h
        · rintro ⟨h, _⟩; exact hkey h
    · simp only [hp, decide_false, Bool.false_eq_true, if_false]
      cases hro : opts.replace with
      | merge =>
        exact ⟨s, rfl, h.keep hi hk hf (.both ho hu (both_leaf hS hT hc ho hkm hu hf hn (Or.inl rfl)
          (Or.inr (fun h => hp h.symm)) (hqp (Or.inl ⟨rfl, fun _ h => by rw [hro] at h; cases h⟩) (hT.attrs hkm)))) rfl hpl rfl⟩
      | replace =>
        refine ⟨_, rfl, h.set hi hk hf (.both ho hu (both_leaf hS hT hc ho hkm hu hf hn
          (Or.inr ⟨rfl, fun h => hp h.symm⟩) (Or.inr (fun h => hp h.symm)) (hqp (Or.inr ⟨rfl, hro, hn, fun h => hp h.symm⟩) (hT.attrs hkm)))) rfl hpl ?_⟩
        obtain ⟨_, _, _, _, hch⟩ := h
        exact hch
  | leafList =>
    simp only
    by_cases huo : f.node.userOrdered = true
    · simp only [huo, if_true]
      exact ⟨_, rfl, h.keep hi hk hf (.both ho hu (both_leafList hT hkm hf hn huo (Or.inl rfl) (hqp (Or.inl ⟨rfl, fun h => by rw [hn] at h; cases h⟩) (hT.attrs hkm)))) rfl rfl rfl⟩
    · simp only [huo]
      refine ⟨_, rfl, h.remove hk hf (.out ho hu (same_leafList hS hT ho hkm hu hf hn) ?_ ?_) rfl (hnu huo) rfl⟩
      · rintro ⟨h, _⟩; exact huo h
      · rintro ⟨_, h⟩; rw [hn] at h; cases h
  | container =>
    simp only [hb']
    have hpl := hplain (by rw [hn]; simp)
    cases b with
    | true =>
      simp only [if_true]
      refine ⟨_, rfl, h.remove hk hf (.out ho hu (hbi.1 rfl).symm ?_ ?_) rfl hpl rfl⟩
      · rintro ⟨_, h | h⟩ <;> rw [hn] at h <;> cases h
      · rintro ⟨_, h⟩; rw [hn] at h; cases h
    | false =>
      obtain ⟨D, hD, hok⟩ := hinner (Or.inl hn) (fun h => absurd (hbi.2 h.symm) (by simp))
      simp only [Bool.false_eq_true, if_false, hD]
      refine ⟨_, rfl, h.set hi hk hf (.both ho hu hok) rfl hpl ?_⟩
      obtain ⟨_, _, _, _, hch⟩ := h
      exact hch
  | list =>
    simp only [hb']
    cases b with
    | true =>
      simp only [if_true]
      have hsame := (hbi.1 rfl).symm
      by_cases huo : f.node.userOrdered = true
      · simp only [huo, if_true]
        rw [stripNonKeys_ok (fun x hx => by
            obtain ⟨g, hg, _⟩ := (hT.sub hkm hf).valid.shape' x hx; exact ⟨g, hg⟩),
          stripNonKeys_ok (fun x hx => by
            obtain ⟨g, hg, _⟩ := (hS.sub ho hfo).valid.shape' x hx; exact ⟨g, hg⟩)]
        have hcs : CompatW ω d (.node f.node) o k := by
          cases hc with
          | mk _ _ _ sub _ _ =>
            exact sub o ho k hkm ((hS.valid.same_iff hT.valid ho hkm).1 hu) f hf (Or.inr hn)
        have hok := both_tree hS hT ho hkm hu hf (Or.inr hn) (hc.full'.full hkm hf) (Or.inr (Or.inr ⟨huo, Or.inr hn⟩))
          (diff_keys (q := Q.tree) (hS.sub ho hfo) (hT.sub hkm hf) hot hcs hsame
            (hkeys (hS.sub ho hfo) (hT.sub hkm hf) hsame))
        refine ⟨_, rfl, h.set hi hk hf (.both ho hu hok) rfl rfl ?_⟩
        obtain ⟨_, _, _, _, hch⟩ := h
        exact hch
      · simp only [huo]
        refine ⟨_, rfl, h.remove hk hf (.out ho hu hsame ?_ ?_) rfl rfl rfl⟩
        · rintro ⟨h, _⟩; exact huo h
        · rintro ⟨_, h⟩; rw [hn] at h; cases h
    | false =>
      obtain ⟨D, hD, hok⟩ := hinner (Or.inr hn) (fun h => absurd (hbi.2 h.symm) (by simp))
      simp only [Bool.false_eq_true, if_false, hD]
      refine ⟨_, rfl, h.set hi hk hf (.both ho hu hok) rfl rfl ?_⟩
      obtain ⟨_, _, _, _, hch⟩ := h
      exact hch
  | choice => unfold KidOk at hkid; simp [hn] at hkid
  | case => unfold KidOk at hkid; simp [hn] at hkid
  | other => unfold KidOk at hkid; simp [hn] at hkid

/-- The new children under a case are noted. -/
def Noted (d : Device) (sc : Scope) (S T : Elem) (s : SubState) : Prop :=
  ∀ k ∈ T.kids, (∀ s ∈ S.kids, uid d sc s ≠ uid d sc k) → ∀ g, d.lookup sc k.tag = .ok g → g.underCase = true →
    (g.path.dropLast.dropLast, g.path.dropLast) ∈ s.choices

/-- A child of the source that is left out: the target has another case of its choice. -/
structure Hidden (d : Device) (sc : Scope) (S T r : Elem) : Prop where
  full : ∀ f, d.lookup sc r.tag = .ok f → Full d f r
  target : ∀ k ∈ T.kids, k.tag ≠ r.tag
  source : ∀ s ∈ S.kids, s.tag ≠ r.tag
  seen : ∀ f, d.lookup sc r.tag = .ok f → f.underCase = true ∧ ∃ k ∈ T.kids,
    (∀ s ∈ S.kids, uid d sc s ≠ uid d sc k) ∧ ∃ g, d.lookup sc k.tag = .ok g ∧ g.underCase = true ∧
      g.path.dropLast.dropLast = f.path.dropLast.dropLast
  other : ∀ f, d.lookup sc r.tag = .ok f → ∀ k ∈ T.kids, (∀ s ∈ S.kids, uid d sc s ≠ uid d sc k) →
    ∀ g, d.lookup sc k.tag = .ok g → g.underCase = true →
      g.path.dropLast.dropLast = f.path.dropLast.dropLast → g.path.dropLast ≠ f.path.dropLast

theorem choices_of_mem {m : ChoiceMap} {a c : List Nat} (h : (a, c) ∈ m) : ∃ c', m.lookup a = some c' := by
  cases hl : m.lookup a with
  | some c' => exact ⟨c', rfl⟩
  | none =>
    have := List.lookup_eq_none_iff.1 hl _ h
    simp at this

/-- Lines 1122-1169, for a child of another case. -/
theorem step_hidden {opts : Opts} {R : Elem} (hR : Side d sc R)
    {todo : Nat → Prop} {M : List Elem} {s : SubState} (h : Inv ω d Q sc S T todo M s) (hT : Side d sc T) {r : Elem}
    (hr : r ∈ R.kids) (hh : Hidden d sc S T r) (hM : ∀ m ∈ M, ∃ s ∈ S.kids, m.tag = s.tag)
    (hn : Noted d sc S T s) :
    ∃ s', subOnlyOther d sc opts s r = .ok s' ∧ s'.choices = s.choices ∧ Inv ω d Q sc S T todo M s' := by
  obtain ⟨f, hf, _⟩ := hR.valid.shape' r hr
  obtain ⟨m, hm, _⟩ := marker_ok (ω := ω) opts r hR hr hf (hh.full f hf)
  obtain ⟨hu, k, hk, hkf, g, hg, hgu, hgc⟩ := hh.seen f hf
  have hall : choiceAllows s.choices f = false := by
    have hin := hn k hk hkf g hg hgu
    rw [hgc] at hin
    obtain ⟨c, hc⟩ := choices_of_mem hin
    unfold choiceAllows
    rw [if_pos hu]
    simp only [hc, decide_eq_false_iff_not]
    obtain ⟨_, _, _, _, hch⟩ := h
    obtain ⟨k', hk', hkf', g', hg', hgu', h1, h2⟩ := hch _ (lookup_mem hc)
    simp only at h1 h2
    rw [h2]
    exact hh.other f hf k' hk' hkf' g' hg' hgu' h1.symm
  have hnone : ∀ x, insertAfterLast (hasTag r.tag) x s.st = none := by
    intro x
    rw [insertAfterLast_none]
    rintro ⟨c1, c2⟩ hc
    unfold hasTag
    simp only [decide_eq_false_iff_not]
    obtain ⟨φ, ⟨hrep, _⟩, hφ, _, _⟩ := h
    cases c1 with
    | none =>
      have : c2 ∈ M := hrep.2.mem_iff.1 (List.mem_map.2 ⟨(none, c2), List.mem_filter.2 ⟨hc, rfl⟩, rfl⟩)
      obtain ⟨s', hs', he⟩ := hM c2 this
      rw [he]
      exact hh.source s' hs'
    | some i =>
      have hcell : (some i, c2) ∈ cellsOf φ T.kids := by
        rw [← hrep.1]; exact List.mem_filter.2 ⟨hc, rfl⟩
      obtain ⟨⟨k', hk'⟩, hφi⟩ := mem_cellsOf.1 hcell
      have hkm := List.mem_of_getElem? hk'
      obtain ⟨g', hg', _⟩ := hT.valid.shape' k' hkm
      by_cases htd : todo i
      · have := (hφ i k' hk').1 htd
        rw [hφi] at this
        cases this
        exact hh.target _ hkm
      · have := ((hφ i k' hk').2 htd g' hg').1
        rw [hφi] at this
        rw [this.stay.tag]
        exact hh.target _ hkm
  have hcr : opts.create = .create → ∃ x, setCreate d f r = .ok x := by
    intro _
    obtain ⟨x, hx, _⟩ := new_create (ω := ω) r hR hr hf
    exact ⟨x, hx⟩
  refine ⟨{ s with obu := noteOrder f.node s.obu }, ?_, rfl, ?_⟩
  · unfold subOnlyOther
    simp only [hf, hm, hnone, hall, bind, Except.bind, pure, Except.pure]
    cases hc : opts.create <;> simp only [hc, true_implies] at hcr ⊢
    case create =>
      obtain ⟨x, hx⟩ := hcr
      simp only [hx]
      simp
    all_goals simp
  · obtain ⟨φ, hr, hφ, ho, hc⟩ := h
    refine ⟨φ, hr, ?_, noteOrder_ok ho hf, hc⟩
    intro j k' hk'
    refine ⟨(hφ j k' hk').1, fun hj g hg => ?_⟩
    have := (hφ j k' hk').2 hj g hg
    exact ⟨this.1, fun hu => noteOrder_mono (this.2 hu)⟩

/-- Lines 1170-1230, for containers and list entries that differ. -/
theorem step_inner {opts : Opts} {R : Elem} (hR : Side d sc R) (hS : Side d sc S) (hT : Side d sc T)
    (hc : CompatW ω d sc S T) {depth : Nat} {fn : SubFn}
    {todo : Nat → Prop} {M : List Elem} {s : SubState} (h : Inv ω d Q sc S T todo M s) {i : Nat} {k o r : Elem}
    (hi : todo i) (hk : T.kids[i]? = some k) (hr : r ∈ R.kids) (ho : o ∈ S.kids) (hu : uid d sc o = uid d sc k)
    (hur : uid d sc r = uid d sc k) {f : Found} (hf : d.lookup sc k.tag = .ok f)
    (hn : f.node.ntype = .container ∨ f.node.ntype = .list) (hne : ¬ SameConfig d (.node f.node) r k)
    (hne' : ¬ SameConfig d (.node f.node) o k)
    (hfn : ∃ D, subInner d opts f.node depth (k, fn) r = .ok D ∧ SubOk ω d Q.tree (.node f.node) o k D) :
    ∃ s', subBoth d sc opts depth s (((k, fn), i), r) = .ok s' ∧
      Inv ω d Q sc S T (fun j => todo j ∧ j ≠ i) M s' := by
  have hkm := List.mem_of_getElem? hk
  have hfr : d.lookup sc r.tag = .ok f := by rw [tag_of_uid hur]; exact hf
  obtain ⟨D, hD, hok⟩ := hfn
  have hok := both_tree hS hT ho hkm hu hf hn (hc.full'.full hkm hf) (Or.inl hne') hok
  obtain ⟨b, hb, hbi⟩ := sameNode_iff (hT.sub hkm hf).valid (hR.sub hr hfr).valid
    (hT.kid hkm hf).readable (hR.kid hr hfr).readable
  have hb' : sameNode d f.node k r = .ok b := hb
  obtain rfl : b = false := by
    cases b with
    | false => rfl
    | true => exact absurd (hbi.1 rfl).symm hne
  have hch : ChoicesOk d sc S T s.choices := by
    obtain ⟨_, _, _, _, hch⟩ := h
    exact hch
  unfold subBoth
  simp only [hf, bind, Except.bind, pure, Except.pure]
  rcases hn with hn | hn
  · simp only [hn, hb', Bool.false_eq_true, if_false, hD]
    refine ⟨_, rfl, h.set hi hk hf (.both ho hu hok) rfl ?_ hch⟩
    unfold noteOrder
    split
    · simp only [hn]
    · rfl
  · simp only [hn, hb', Bool.false_eq_true, if_false, hD]
    exact ⟨_, rfl, h.set hi hk hf (.both ho hu hok) rfl rfl hch⟩

/-! ## The loops together -/

theorem zipIdx_inj {α : Type} {l : List α} {p q : α × Nat} (hp : p ∈ l.zipIdx) (hq : q ∈ l.zipIdx)
    (h : p.2 = q.2) : p = q := by
  obtain ⟨a, i⟩ := p
  obtain ⟨b, j⟩ := q
  simp only at h
  subst h
  rw [List.mem_zipIdx_iff_getElem?] at hp hq
  simp only at hp hq
  rw [hp] at hq
  cases hq; rfl

open Classical in
theorem loops {α : Type} {R : Elem} (ν : Prop) (ke : α → Elem) (idx : α → Nat) (tab : List α)
    (f1 : SubState → α → Except Err SubState) (f2 : SubState → Elem → Except Err SubState)
    (f3 : SubState → α × Elem → Except Err SubState)
    (hR : Side d sc R) (hS : Side d sc S) (hT : Side d sc T)
    (hpeer : ∀ r ∈ R.kids, ∀ k ∈ T.kids, uid d sc r = uid d sc k → ∃ s ∈ S.kids, uid d sc s = uid d sc k)
    (hsame : ∀ s ∈ S.kids, ∃ r ∈ R.kids, uid d sc r = uid d sc s ∧ ((∀ k ∈ T.kids, uid d sc k ≠ uid d sc s) → r = s))
    (hc : CompatW ω d sc S T) (htag : S.tag = T.tag) (hval : parseTextAt d sc S = parseTextAt d sc T)
    (htab : tab.map (fun a => (ke a, idx a)) = T.kids.zipIdx)
    (hf1 : ∀ {todo : Nat → Prop} {M : List Elem} {s : SubState}, Inv ω d Q sc S T todo M s → ∀ a ∈ tab,
      todo (idx a) → T.kids[idx a]? = some (ke a) → (∀ s ∈ S.kids, uid d sc s ≠ uid d sc (ke a)) →
      ∃ s', f1 s a = .ok s' ∧ (ν → Notes d sc (ke a) s s') ∧ Inv ω d Q sc S T (fun j => todo j ∧ j ≠ idx a) M s')
    (hf2 : ∀ {todo : Nat → Prop} {M : List Elem} {s : SubState}, Inv ω d Q sc S T todo M s → ∀ o ∈ R.kids,
      (∀ k ∈ T.kids, uid d sc k ≠ uid d sc o) → (∀ m ∈ M, ∃ s ∈ S.kids, m.tag = s.tag) →
      (ν → Noted d sc S T s) →
      ∃ s', f2 s o = .ok s' ∧ s'.choices = s.choices ∧
        ((o ∈ S.kids ∧ ∃ m f, d.lookup sc o.tag = .ok f ∧ Marked ω d Q sc f o m ∧
          Inv ω d Q sc S T todo (M ++ [m]) s') ∨ (o ∉ S.kids ∧ Inv ω d Q sc S T todo M s')))
    (hf3 : ∀ {todo : Nat → Prop} {M : List Elem} {s : SubState}, Inv ω d Q sc S T todo M s → ∀ a ∈ tab,
      ∀ o ∈ R.kids, todo (idx a) → T.kids[idx a]? = some (ke a) → uid d sc o = uid d sc (ke a) →
      ∃ s', f3 s (a, o) = .ok s' ∧ Inv ω d Q sc S T (fun j => todo j ∧ j ≠ idx a) M s') :
    ∃ g s1 s2 s3 st' other φ M,
      groupKids d sc ke id tab R.kids = .ok g ∧
      g.onlyOne.foldlM f1 { st := T.kids.zipIdx.map (fun p => (some p.2, p.1)) } = .ok s1 ∧
      g.onlyTwo.foldlM f2 s1 = .ok s2 ∧
      g.both.foldlM f3 s2 = .ok s3 ∧
      orderAll s3.obu s3.st = .ok st' ∧
      orderAll s3.obu (R.kids.zipIdx.map (fun p => (some p.2, p.1))) = .ok other ∧
      Loops ω d Q sc S T φ M s3.obu s3.st st' := by
  have htabm : ∀ p ∈ tab, T.kids[idx p]? = some (ke p) := by
    intro p hp
    have : (ke p, idx p) ∈ T.kids.zipIdx := by rw [← htab]; exact List.mem_map.2 ⟨p, hp, rfl⟩
    rw [List.mem_zipIdx_iff_getElem?] at this
    exact this
  have htab1 : tab.map ke = T.kids := by
    have : tab.map ke = (tab.map (fun a => (ke a, idx a))).map Prod.fst := by rw [List.map_map]; rfl
    rw [this, htab, List.zipIdx_map_fst]
  have hidx : (tab.map idx).Nodup := by
    have : tab.map idx = (tab.map (fun a => (ke a, idx a))).map Prod.snd := by rw [List.map_map]; rfl
    rw [this, htab, List.zipIdx_map_snd]
    exact List.nodup_range'
  have hinj : ∀ {p q : α}, p ∈ tab → q ∈ tab → idx p = idx q → p = q := fun hp hq h =>
    List.inj_on_of_nodup_map hidx hp hq h
  have hg := groupKids_ok (d := d) (sc := sc) (pa := ke) (pb := id)
    (as := tab) (bs := R.kids) (by rw [htab1]; exact hT.valid.indexable)
    (by rw [List.map_id]; exact hR.valid.indexable)
  simp only [id] at hg
  set G := groupsOf (fun a : α => uid d sc (ke a)) (fun b => uid d sc b) tab R.kids with hG
  have hTk : ∀ i k, T.kids[i]? = some k → ∃ a ∈ tab, ke a = k ∧ idx a = i := by
    intro i k hk
    have : (k, i) ∈ T.kids.zipIdx := by rw [List.mem_zipIdx_iff_getElem?]; exact hk
    rw [← htab] at this
    obtain ⟨a, ha, he⟩ := List.mem_map.1 this
    cases he
    exact ⟨a, ha, rfl, rfl⟩
  have htabnd : tab.Nodup := List.Nodup.of_map idx hidx
  -- the first loop
  obtain ⟨s1, h1, I1, N1⟩ := foldlM_ok (f := f1)
    (P := fun dn s => Inv ω d Q sc S T (fun i => i ∉ dn.map idx) [] s ∧ (ν → ∀ a ∈ dn, ∀ g,
      d.lookup sc (ke a).tag = .ok g → g.underCase = true →
        (g.path.dropLast.dropLast, g.path.dropLast) ∈ s.choices)) (l := G.onlyOne)
    (s := { st := T.kids.zipIdx.map (fun p => (some p.2, p.1)) })
    ⟨Inv.init.congr (by simp), by simp⟩ (by
      rintro dn a td s hl ⟨hI, hN⟩
      have ham : a ∈ G.onlyOne := by rw [hl]; simp
      obtain ⟨ha, habs⟩ := mem_onlyOne_iff.1 ham
      have hnd : G.onlyOne.Nodup := htabnd.filter _
      have hnot : idx a ∉ dn.map idx := by
        intro hm
        obtain ⟨b, hb, he⟩ := List.mem_map.1 hm
        have hbm : b ∈ G.onlyOne := by rw [hl]; simp [hb]
        have : b = a := hinj (mem_onlyOne_iff.1 hbm).1 ha he
        subst this
        rw [hl, List.nodup_append] at hnd
        exact hnd.2.2 b hb b (by simp) rfl
      obtain ⟨s', h1, hn, h2⟩ := hf1 hI a ha hnot (htabm a ha) (by
        intro s hs he
        obtain ⟨r, hr, hru, _⟩ := hsame s hs
        exact habs r hr (hru.trans he))
      refine ⟨s', h1, h2.congr ?_, ?_⟩
      · intro i _
        simp only [List.map_append, List.map_cons, List.map_nil, List.mem_append, List.mem_singleton, not_or]
      · intro hν b hb g hg hu
        rcases List.mem_append.1 hb with hb | hb
        · exact (hn hν).1 _ (hN hν b hb g hg hu)
        · simp only [List.mem_singleton] at hb
          subst hb
          exact (hn hν).2 g hg hu)
  have N1' : ν → Noted d sc S T s1 := by
    intro hν k hk hkf g hg hu
    rw [← htab1] at hk
    obtain ⟨a, ha, rfl⟩ := List.mem_map.1 hk
    refine N1 hν a (mem_onlyOne_iff.2 ⟨ha, ?_⟩) g hg hu
    intro r hr he
    obtain ⟨s, hs, hsu⟩ := hpeer r hr (ke a) (List.mem_of_getElem? (htabm a ha)) he
    exact hkf s hs hsu
  -- the second loop
  obtain ⟨s2, h2, M, hM, I2, _⟩ := foldlM_ok (f := f2)
    (P := fun dn s => ∃ M, List.Forall₂ (fun o m => ∃ f, d.lookup sc o.tag = .ok f ∧ Marked ω d Q sc f o m)
        (dn.filter (fun o => decide (o ∈ S.kids))) M ∧
      Inv ω d Q sc S T (fun i => i ∉ G.onlyOne.map idx) M s ∧ s.choices = s1.choices) (l := G.onlyTwo) (s := s1)
    ⟨[], .nil, I1, rfl⟩ (by
      rintro dn a td s hl ⟨M, hM, hI, hC⟩
      have ham : a ∈ G.onlyTwo := by rw [hl]; simp
      obtain ⟨ha, habs⟩ := mem_onlyTwo_iff.1 ham
      obtain ⟨s', h1, hc', h⟩ := hf2 hI a ha (by
        intro k hk
        rw [← htab1] at hk
        obtain ⟨p, hp, rfl⟩ := List.mem_map.1 hk
        exact habs p hp) (by
        intro m hm
        obtain ⟨o, ho, f, _, hmk⟩ := forall₂_right hM hm
        exact ⟨o, by simpa using (List.mem_filter.1 ho).2, hmk.tag⟩) (by
        intro hν
        unfold Noted
        rw [hC]
        exact N1' hν)
      refine ⟨s', h1, ?_⟩
      rw [List.filter_append]
      rcases h with ⟨hin, m, f, h2, h3, h4⟩ | ⟨hout, h4⟩
      · refine ⟨M ++ [m], ?_, h4, hc'.trans hC⟩
        rw [List.filter_cons_of_pos (by simpa using hin)]
        exact List.rel_append hM (.cons ⟨f, h2, h3⟩ .nil)
      · refine ⟨M, ?_, h4, hc'.trans hC⟩
        rw [List.filter_cons_of_neg (by simpa using hout)]
        simpa using hM)
  -- the third loop
  obtain ⟨s3, h3, I3⟩ := foldlM_ok (f := f3)
    (P := fun dn s => Inv ω d Q sc S T (fun i => i ∉ G.onlyOne.map idx ∧ i ∉ dn.map (fun q => idx q.1)) M s)
    (l := G.both) (s := s2) (I2.congr (by simp)) (by
      rintro dn ⟨a, o⟩ td s hl hI
      have ham : (a, o) ∈ G.both := by rw [hl]; simp
      obtain ⟨ha, ho, hu⟩ := mem_both ham
      have hk := htabm _ ha
      have hnd : (G.both.map Prod.fst).Nodup := List.Nodup.sublist both_sublist htabnd
      have hn1 : idx a ∉ G.onlyOne.map idx := by
        intro hm
        obtain ⟨b, hb, he⟩ := List.mem_map.1 hm
        obtain ⟨hbt, habs⟩ := mem_onlyOne_iff.1 hb
        have : b = a := hinj hbt ha he
        subst this
        exact habs o ho hu
      have hn2 : idx a ∉ dn.map (fun q => idx q.1) := by
        intro hm
        obtain ⟨b, hb, he⟩ := List.mem_map.1 hm
        have hbm : b ∈ G.both := by rw [hl]; simp [hb]
        have : b.1 = a := hinj (mem_both (a := b.1) (b := b.2) hbm).1 ha he
        rw [hl, List.map_append, List.nodup_append] at hnd
        exact hnd.2.2 b.1 (List.mem_map_of_mem hb) a (by simp) this
      obtain ⟨s', h1, h2⟩ := hf3 hI a ha o ho ⟨hn1, hn2⟩ hk hu
      refine ⟨s', h1, h2.congr ?_⟩
      intro j _
      simp only [List.map_append, List.map_cons, List.map_nil, List.mem_append, List.mem_singleton, not_or,
        and_assoc])
  obtain ⟨φ, ⟨hrep, hlate⟩, hφ, hobu, hch⟩ := I3
  have hout : ∀ i k, T.kids[i]? = some k → ∀ f, d.lookup sc k.tag = .ok f → Outcome ω d Q sc S f k (φ i) ∧
      (UserOrdered d sc k.tag → obuFor s3.obu k.tag ≠ none) := by
    intro i k hk
    refine (hφ i k hk).2 ?_
    rintro ⟨hn1, hn2⟩
    obtain ⟨a, ha, rfl, rfl⟩ := hTk i k hk
    rcases group_cases (f := fun a : α => uid d sc (ke a)) (g := fun b => uid d sc b)
      (bs := R.kids) ha with h | ⟨b, h⟩
    · exact hn1 (List.mem_map.2 ⟨_, h, rfl⟩)
    · exact hn2 (List.mem_map.2 ⟨_, h, rfl⟩)
  -- the order
  obtain ⟨st', h4, h5⟩ := orderAll_ord (st := s3.st) s3.obu [] s3.st (by simpa using hobu.1) (ord_nil _ _) (by
    intro p hp c hcm hc1 hct
    obtain ⟨f, hf, hfu, hfn⟩ := hobu.2 p hp
    obtain ⟨i, hi⟩ := Option.ne_none_iff_exists'.1 hc1
    have hcell : c ∈ cellsOf φ T.kids := by
      rw [← hrep.1]; exact List.mem_filter.2 ⟨hcm, by simp [hi]⟩
    obtain ⟨c1, c2⟩ := c
    simp only at hi hct
    subst hi
    obtain ⟨⟨k, hk⟩, hφi⟩ := mem_cellsOf.1 hcell
    have hkm := List.mem_of_getElem? hk
    obtain ⟨g, hgk, hkid⟩ := hT.valid.shape' k hkm
    have hs := ((hout i k hk g hgk).1)
    rw [hφi] at hs
    have hs := hs.stay
    have hkt : k.tag = p.1 := by rw [← hs.tag, hct]
    rw [hkt, hf] at hgk
    cases hgk
    have hf' : d.lookup sc k.tag = .ok f := by rw [hkt]; exact hf
    rcases hfn with ⟨hn, hp2⟩ | ⟨hn, hp2⟩
    · rw [hp2]
      show c2.text ≠ none
      rw [hs.text]
      exact (hT.level.here'.orderedValues k hkm f hf' hfu hn).2
    · rw [hp2]
      intro q hq
      have := hs.kid
      unfold KidOk at this
      simp only [hn] at this
      obtain ⟨c, hcc⟩ := this.2.2.1 q hq
      rw [find_childrenWith hcc]
      simp)
  obtain ⟨other, h6, _⟩ := orderAll_ord (st := R.kids.zipIdx.map (fun p => (some p.2, p.1))) s3.obu []
    (R.kids.zipIdx.map (fun p => (some p.2, p.1))) (by simpa using hobu.1) (ord_nil _ _) (by
    intro p hp c hcm hc1 hct
    obtain ⟨f, hf, hfu, hfn⟩ := hobu.2 p hp
    obtain ⟨⟨k, i⟩, hki, rfl⟩ := List.mem_map.1 hcm
    simp only at hct
    have hkm : k ∈ R.kids := by
      rw [List.mem_zipIdx_iff_getElem?] at hki
      exact List.mem_of_getElem? hki
    have hf' : d.lookup sc k.tag = .ok f := by rw [hct]; exact hf
    rcases hfn with ⟨hn, hp2⟩ | ⟨hn, hp2⟩
    · rw [hp2]
      exact (hR.level.here'.orderedValues k hkm f hf' hfu hn).2
    · rw [hp2]
      intro q hq
      have := hR.kid hkm hf'
      unfold KidOk at this
      simp only [hn] at this
      obtain ⟨c, hcc⟩ := this.2.2.1 q hq
      rw [find_childrenWith hcc]
      simp)
  refine ⟨G, s1, s2, s3, st', other, φ, M, hg, h1, h2, h3, h4, h6, ?_⟩
  refine ⟨hS, hT, htag, hval, hc, fun i k hk f hf => (hout i k hk f hf).1, ?_, ?_, ?_, hrep, ?_, ?_,
    by simpa using h5, hlate⟩
  · intro m hm
    obtain ⟨o, ho, f, hf, hmk⟩ := forall₂_right hM hm
    obtain ⟨ho, hoS⟩ := List.mem_filter.1 ho
    obtain ⟨_, habs⟩ := mem_onlyTwo_iff.1 ho
    refine ⟨o, by simpa using hoS, ?_, f, hf, hmk⟩
    intro k hk
    rw [← htab1] at hk
    obtain ⟨p, hp, rfl⟩ := List.mem_map.1 hk
    exact habs p hp
  · intro o ho habs
    have hoR : o ∈ R.kids := by
      obtain ⟨r, hr, _, he⟩ := hsame o ho
      rw [← he habs]; exact hr
    have : o ∈ G.onlyTwo := mem_onlyTwo_iff.2 ⟨hoR, fun p hp => by
      refine habs (ke p) ?_
      rw [← htab1]; exact List.mem_map_of_mem hp⟩
    obtain ⟨m, hm, f, hf, hmk⟩ := forall₂_left hM (List.mem_filter.2 ⟨this, by simpa using ho⟩)
    exact ⟨m, hm, hmk.uid⟩
  · have : M.map (uid d sc) = (G.onlyTwo.filter (fun o => decide (o ∈ S.kids))).map (uid d sc) := by
      have key : ∀ {l M : List Elem}, List.Forall₂ (fun o m => ∃ f, d.lookup sc o.tag = .ok f ∧
          Marked ω d Q sc f o m) l M → M.map (uid d sc) = l.map (uid d sc) := by
        intro l M h
        induction h with
        | nil => rfl
        | cons h _ ih =>
          obtain ⟨f, hf, hmk⟩ := h
          rw [List.map_cons, List.map_cons, ih, hmk.uid]
      exact key hM
    rw [this]
    exact List.Nodup.sublist ((List.filter_sublist.trans List.filter_sublist).map _) hR.valid.indexable.nodup
  · intro t info ht
    obtain ⟨f, hf⟩ := hobu.2 _ (obuFor_some ht)
    exact ⟨f, hf⟩
  · intro k hk hu
    obtain ⟨i, hi⟩ := List.getElem?_of_mem hk
    obtain ⟨f, hf, _⟩ := hT.valid.shape' k hk
    exact (hout i k hi f hf).2 hu

end

/-! ## Differing leaf-lists -/

section
variable {d : Device} {sc : Scope}

theorem lookupAll_ok : ∀ {l : List Elem}, (∀ k ∈ l, ∃ f, d.lookup sc k.tag = .ok f) →
    lookupAll d sc l = .ok ()
  | [], _ => rfl
  | k :: l, h => by
    obtain ⟨f, hf⟩ := h k (by simp)
    rw [lookupAll, hf]
    exact lookupAll_ok (l := l) (fun x hx => h x (by simp [hx]))

theorem sameLeafList_ok {sn : SNode} {t : QName} {a b : List Elem}
    (ha : ∀ k ∈ a, k.tag = t → ∃ v, parseText d k sn = .ok v)
    (hb : ∀ k ∈ b, k.tag = t → ∃ v, parseText d k sn = .ok v) :
    ∃ r, sameLeafList d sn t a b = .ok r := by
  obtain ⟨x, hx⟩ := mapM_exists (f := fun c => parseText d c sn) (l := a.filter (fun c => c.tag = t))
    (fun c hc => ha c (List.mem_filter.1 hc).1 (by simpa using (List.mem_filter.1 hc).2))
  obtain ⟨y, hy⟩ := mapM_exists (f := fun c => parseText d c sn) (l := b.filter (fun c => c.tag = t))
    (fun c hc => hb c (List.mem_filter.1 hc).1 (by simpa using (List.mem_filter.1 hc).2))
  unfold sameLeafList
  rw [hx, hy]
  simp only [bind, Except.bind, pure, Except.pure]
  split
  · exact ⟨_, rfl⟩
  · exact ⟨_, rfl⟩

theorem leafListsDiffer_ok {S T : Elem} (hS : Side d sc S) (hT : Side d sc T) :
    ∀ {l : List Elem}, (∀ k ∈ l, k ∈ T.kids) → ∃ r, leafListsDiffer d sc T.kids S.kids l = .ok r ∧
      ((∀ k ∈ l, ∀ f, d.lookup sc k.tag = .ok f → f.node.ntype ≠ .leafList) → r = false)
  | [], _ => ⟨false, rfl, fun _ => rfl⟩
  | k :: l, h => by
    obtain ⟨f, hf, _⟩ := hT.valid.shape' k (h k (by simp))
    obtain ⟨r, hr, hr2⟩ := leafListsDiffer_ok hS hT (l := l) (fun x hx => h x (by simp [hx]))
    rw [leafListsDiffer]
    simp only [hf, bind, Except.bind, pure, Except.pure]
    split
    · rename_i hc
      have key : ∀ {E : Elem}, Side d sc E → ∀ x ∈ E.kids, x.tag = k.tag → ∃ v, parseText d x f.node = .ok v := by
        intro E hE x hx hxt
        have := (hE.kid hx (by rw [hxt]; exact hf)).readable
        unfold Readable at this
        rw [parseTextAt_eq] at this
        exact this
      obtain ⟨b, hb⟩ := sameLeafList_ok (sn := f.node) (t := k.tag) (key hT) (key hS)
      simp only [hb]
      cases b with
      | true => exact ⟨r, by simpa using hr, fun hn => hr2 (fun x hx => hn x (by simp [hx]))⟩
      | false => exact ⟨true, by simp, fun hn => absurd hc.1 (hn k (by simp) f hf)⟩
    · exact ⟨r, hr, fun hn => hr2 (fun x hx => hn x (by simp [hx]))⟩

end

/-- Without children on the other side no leaf-list differs. -/
theorem leafListsDiffer_empty : ∀ {l a : List Elem} {b : Bool}, leafListsDiffer d sc a [] l = .ok b → b = false
  | [], _, _, h => by
    simp only [leafListsDiffer, Except.ok.injEq] at h
    exact h.symm
  | k :: l, _, _, h => by
    rw [leafListsDiffer] at h
    simp only [bind, Except.bind, List.any_nil, Bool.false_eq_true, and_false, if_false] at h
    split at h
    · cases h
    · exact leafListsDiffer_empty h

theorem Side.noText {d : Device} {sc : Scope} {e k : Elem} (h : Side d sc e) (hk : k ∈ e.kids) {f : Found}
    (hf : d.lookup sc k.tag = .ok f) (hn : f.node.ntype = .container ∨ f.node.ntype = .list) : k.text = none := by
  rcases hn with hn | hn
  · exact h.level.here'.noText k hk f hf hn
  · have := h.kid hk hf
    unfold KidOk at this
    simp only [hn] at this
    exact this.1

/-! ## Replacing below a level -/

section
variable {d : Device} {Q : Carried} {sc : Scope} {S T : Elem}

/-- Marking both sides does not change whether they are the same. -/
theorem same_of_setOp {a b : Elem} (ha : a.attrs = []) (hb : b.attrs = []) {v : String}
    (h : SameConfig d sc (setOp a v) (setOp b v)) : SameConfig d sc a b := by
  obtain ⟨h1, h2⟩ := h
  cases h1 with
  | mk t1 v1 _ k1 o1 s1 =>
    cases h2 with
    | mk t2 v2 _ k2 o2 s2 =>
      cases a
      cases b
      exact ⟨.mk t1 v1 (by simp [ha]) k1 o1 s1, .mk t2 v2 (by simp [hb]) k2 o2 s2⟩

theorem setOp_same {a b : Elem} (ha : a.attrs = []) (hb : b.attrs = []) {v : String}
    (h : SameConfig d sc a b) : SameConfig d sc (setOp a v) (setOp b v) := by
  obtain ⟨h1, h2⟩ := h
  cases h1 with
  | mk t1 v1 _ k1 o1 s1 =>
    cases h2 with
    | mk t2 v2 _ k2 o2 s2 =>
      cases a
      cases b
      simp only [Elem.attrs] at ha hb
      subst ha hb
      exact ⟨.mk t1 v1 (by intro p h; exact h) k1 o1 s1, .mk t2 v2 (by intro p h; exact h) k2 o2 s2⟩

/-- Lines 338-353. -/
theorem replace_new (hfresh : ∀ {f : Found} {k : Elem}, NoAttrs k → Q.fresh f k (setOp k "replace")) (hT : Side d sc T)
    {todo : Nat → Prop} {M : List Elem} {s : SubState} (h : Inv ω d Q sc S T todo M s) {i : Nat} {k : Elem}
    (hi : todo i) (hk : T.kids[i]? = some k) (habs : ∀ s ∈ S.kids, uid d sc s ≠ uid d sc k) :
    ∃ s', replaceOnlySelf d sc s (k, i) = .ok s' ∧ Inv ω d Q sc S T (fun j => todo j ∧ j ≠ i) M s' := by
  have hkm := List.mem_of_getElem? hk
  obtain ⟨f, hf, _⟩ := hT.valid.shape' k hkm
  have hch : ChoicesOk d sc S T s.choices := by
    obtain ⟨_, _, _, _, hc⟩ := h
    exact hc
  unfold replaceOnlySelf
  simp only [hf, bind, Except.bind, pure, Except.pure]
  exact ⟨_, rfl, h.set hi hk hf (.new habs (new_op hT hkm hf (Or.inl rfl) (by simp)) (hfresh (hT.bare.sub' k hkm))) rfl rfl hch⟩

/-- Lines 355-382. -/
theorem replace_gone {opts : Opts} (hmark : ∀ {f : Found} {s m : Elem}, deleteMarker d opts f s = .ok m → Q.mark f s m) (hS : Side d sc S)
    (hF : Deep d (FilledLevel d) sc S)
    {todo : Nat → Prop} {M : List Elem} {s : SubState} (h : Inv ω d Q sc S T todo M s) {o : Elem}
    (ho : o ∈ S.kids) :
    ∃ s' m f, replaceOnlyOther d sc opts s o = .ok s' ∧ d.lookup sc o.tag = .ok f ∧ Marked ω d Q sc f o m ∧
      s'.choices = s.choices ∧ Inv ω d Q sc S T todo (M ++ [m]) s' := by
  obtain ⟨f, hf, _⟩ := hS.valid.shape' o ho
  obtain ⟨m, hm, hM⟩ := marker_ok (ω := ω) opts o hS ho hf (hF.full ho hf)
  unfold replaceOnlyOther
  simp only [hf, hm, bind, Except.bind, pure, Except.pure]
  refine ⟨_, m, f, rfl, rfl, ⟨hM, hmark hm⟩, rfl, h.mark hf ?_ ?_ (Or.inl rfl) rfl⟩
  · show Ins (none, m) s.st (putLast o.tag (none, m) s.st)
    unfold putLast
    cases hi : insertAfterLast (hasTag o.tag) (none, m) s.st with
    | none => exact Ins.append _ _
    | some st => exact ins_insertAfterLast hi
  · show Late T.kids s.st → Late T.kids (putLast o.tag (none, m) s.st)
    unfold putLast
    cases hi : insertAfterLast (hasTag o.tag) (none, m) s.st with
    | none => exact fun h => late_append h _
    | some st => exact fun h => late_after h hM.tag hi

/-- Lines 384-421. -/
theorem replace_both (hwhole : ∀ {sc : Scope} {S T : Elem}, Side d sc S → Side d sc T → Q.tree sc S T (setOp T "replace"))
    (hqp : ∀ {f : Found} {s k x : Elem}, x = setOp k "replace" ∨ (x = k ∧ f.node.info.isKey = true ∧
      f.node.ntype = .leaf) → Q.plain f s k x) (hS : Side d sc S) (hT : Side d sc T)
    (hc : CompatW ω d sc S T) (hF : Deep d (FilledLevel d) sc S)
    {todo : Nat → Prop} {M : List Elem} {s : SubState} (h : Inv ω d Q sc S T todo M s) {i : Nat} {k o : Elem}
    (hi : todo i) (hk : T.kids[i]? = some k) (ho : o ∈ S.kids) (hu : uid d sc o = uid d sc k) :
    ∃ s', replaceBoth d sc s ((k, i), o) = .ok s' ∧ Inv ω d Q sc S T (fun j => todo j ∧ j ≠ i) M s' := by
  have hkm := List.mem_of_getElem? hk
  obtain ⟨f, hf, hkid⟩ := hT.valid.shape' k hkm
  have hot : o.tag = k.tag := tag_of_uid hu
  have hfo : d.lookup sc o.tag = .ok f := by rw [hot]; exact hf
  have hokid := hS.kid ho hfo
  have hch : ChoicesOk d sc S T s.choices := by
    obtain ⟨_, _, _, _, hc⟩ := h
    exact hc
  have hplain : ¬ (f.node.ntype = .leafList ∨ f.node.ntype = .list) → s.obu = noteOrder f.node s.obu := by
    intro hn
    unfold noteOrder
    split
    · cases hn' : f.node.ntype <;> simp_all
    · rfl
  have hnu : f.node.userOrdered ≠ true → s.obu = noteOrder f.node s.obu := by
    intro hn
    unfold noteOrder
    rw [if_neg (by rintro ⟨h, _⟩; exact hn h)]
  have htree : f.node.ntype = .container ∨ f.node.ntype = .list → Worth d f o k → BothOk ω d Q sc f o k (setOp k "replace") := by
    intro hn hw
    exact both_tree hS hT ho hkm hu hf hn (hc.full'.full hkm hf) hw
      ⟨rfl, rfl, rfl, Or.inl ⟨rfl, fun _ h hnp => by cases h; exact hF.here' o ho f hfo hnp⟩, hwhole (hS.sub ho hfo) (hT.sub hkm hf)⟩
  have nm : ∀ {e : Elem}, e.attrs = [] → ((setOp e "replace").attrs.map Prod.fst).Nodup := by
    intro e he
    exact set_names (by rw [he]; simp)
  obtain ⟨b, hb, hbi⟩ := sameNode_iff (d := d) (sn := f.node) (a := setOp k "replace") (b := setOp o "replace")
    (valid_body (SameBody.set _ _ _) (nm (hT.attrs hkm)) (hT.sub hkm hf).valid)
    (valid_body (SameBody.set _ _ _) (nm (hS.attrs ho)) (hS.sub ho hfo).valid)
    (kidOk_body (SameBody.set _ _ _) hkid).readable (kidOk_body (SameBody.set _ _ _) hokid).readable
  have hb' : sameNode d f.node (setOp k "replace") (setOp o "replace") = .ok b := hb
  have hdiff : b = false → Worth d f o k := fun hbf => Or.inl (fun hs => by
    rw [hbi.2 (setOp_same (hT.attrs hkm) (hS.attrs ho) hs.symm)] at hbf; cases hbf)
  have hsame : b = true → SameConfig d (.node f.node) o k := fun hbt =>
    (same_of_setOp (hT.attrs hkm) (hS.attrs ho) (hbi.1 hbt)).symm
  unfold replaceBoth
  simp only [hf, bind, Except.bind, pure, Except.pure]
  cases hn : f.node.ntype with
  | leaf =>
    simp only
    rw [sameText_ok hkid.readable hokid.readable, parseTextAt_eq, parseTextAt_eq]
    have hpl := hplain (by rw [hn]; simp)
    by_cases hp : parseText d k f.node = parseText d o f.node
    · simp only [hp, decide_true, if_true]
      by_cases hkey : f.node.info.isKey = true
      · simp only [hkey, if_true]
        exact ⟨s, rfl, h.keep hi hk hf (.both ho hu (both_leaf hS hT hc ho hkm hu hf hn (Or.inl rfl) (Or.inl hkey) (hqp (Or.inr ⟨rfl, hkey, hn⟩)))) rfl hpl rfl⟩
      · simp only [hkey]
        refine ⟨_, rfl, h.remove hk hf (.out ho hu (same_leaf hS hT ho hkm hu hf hn hp.symm) ?_ ?_) rfl hpl rfl⟩
        · rintro ⟨_, h | h⟩ <;> rw [hn] at h <;> cases h
        · rintro ⟨h, _⟩; exact hkey h
    · simp only [hp, decide_false, Bool.false_eq_true, if_false]
      exact ⟨_, rfl, h.set hi hk hf (.both ho hu (both_leaf hS hT hc ho hkm hu hf hn
          (Or.inr ⟨rfl, fun h => hp h.symm⟩) (Or.inr (fun h => hp h.symm)) (hqp (Or.inl rfl)))) rfl hpl hch⟩
  | leafList =>
    simp only
    by_cases huo : f.node.userOrdered = true
    · simp only [huo, if_true]
      exact ⟨_, rfl, h.set hi hk hf (.both ho hu (both_leafList hT hkm hf hn huo (Or.inr rfl) (hqp (Or.inl rfl)))) rfl rfl hch⟩
    · simp only [huo]
      refine ⟨_, rfl, h.remove hk hf (.out ho hu (same_leafList hS hT ho hkm hu hf hn) ?_ ?_) rfl (hnu huo) rfl⟩
      · rintro ⟨h, _⟩; exact huo h
      · rintro ⟨_, h⟩; rw [hn] at h; cases h
  | container =>
    simp only [hb']
    have hpl := hplain (by rw [hn]; simp)
    cases b with
    | true =>
      simp only [if_true]
      refine ⟨_, rfl, h.remove hk hf (.out ho hu (hsame rfl) ?_ ?_) rfl hpl rfl⟩
      · rintro ⟨_, h | h⟩ <;> rw [hn] at h <;> cases h
      · rintro ⟨_, h⟩; rw [hn] at h; cases h
    | false =>
      simp only [Bool.false_eq_true, if_false]
      exact ⟨_, rfl, h.set hi hk hf (.both ho hu (htree (Or.inl hn) (hdiff rfl))) rfl hpl hch⟩
  | list =>
    simp only [hb']
    cases b with
    | true =>
      simp only [if_true]
      by_cases huo : f.node.userOrdered = true
      · simp only [huo, if_true]
        exact ⟨_, rfl, h.set hi hk hf (.both ho hu (htree (Or.inr hn) (Or.inr (Or.inr ⟨huo, Or.inr hn⟩)))) rfl rfl hch⟩
      · simp only [huo]
        refine ⟨_, rfl, h.remove hk hf (.out ho hu (hsame rfl) ?_ ?_) rfl rfl rfl⟩
        · rintro ⟨h, _⟩; exact huo h
        · rintro ⟨_, h⟩; rw [hn] at h; cases h
    | false =>
      simp only [Bool.false_eq_true, if_false]
      exact ⟨_, rfl, h.set hi hk hf (.both ho hu (htree (Or.inr hn) (hdiff rfl))) rfl rfl hch⟩
  | choice => unfold KidOk at hkid; simp [hn] at hkid
  | case => unfold KidOk at hkid; simp [hn] at hkid
  | other => unfold KidOk at hkid; simp [hn] at hkid

/-- What the loops leave behind is a difference. -/
theorem Loops.subOk {q : Scope → Elem → Elem → Elem → Prop} {φ : Nat → Option Elem} {M : List Elem}
    {obu : List (QName × OrderInfo)} {st st' : List Cell} (hL : Loops ω d Q sc S T φ M obu st st')
    (hq : q sc S T (T.setKids (st'.map Prod.snd))) :
    SubOk ω d q sc S T (T.setKids (st'.map Prod.snd)) ∧ (T.setKids (st'.map Prod.snd)).attrs = [] ∧
      Diff ω d sc S T (T.setKids (st'.map Prod.snd)) := by
  have hTa : T.attrs = [] := hL.sideT.bare.here'
  have hD : Diff ω d sc S T (T.setKids (st'.map Prod.snd)) := hL.diff rfl rfl (by
    show (T.attrs.map Prod.fst).Nodup
    rw [hTa]; simp)
  refine ⟨⟨rfl, rfl, rfl, Or.inr ⟨hTa, hD, ?_⟩, hq⟩, hTa, hD⟩
  intro s hs c hcm hu f hf hkey hn hp
  exact hL.keys hs hcm hu hf hkey hn hp

/-- `get_config_replace` succeeds, and its result is right. -/
theorem configReplace_ok {opts : Opts} {q : Carrier} (hQ : Carry d opts q)
    (hr : opts.diffType = .replace) (hS : Side d sc S)
    (hT : Side d sc T) (htag : S.tag = T.tag) (hval : parseTextAt d sc S = parseTextAt d sc T)
    (hc : CompatW ω d sc S T) (hF : Deep d (FilledLevel d) sc S) :
    ∃ D, configReplace d sc opts T S = .ok D ∧ SubOk ω d (q.node opts.replaceDepth) sc S T D ∧ D.attrs = [] ∧
      Diff ω d sc S T D := by
  obtain ⟨g, s1, s2, s3, st', _, φ, M, hg, h1, h2, h3, h4, _, hL⟩ := loops
    (Q := q.kids opts.replaceDepth) False (Prod.fst : Elem × Nat → Elem)
    Prod.snd T.kids.zipIdx (replaceOnlySelf d sc) (replaceOnlyOther d sc opts) (replaceBoth d sc) hS hS hT
    (fun r hr _ _ he => ⟨r, hr, he⟩) (fun s hs => ⟨s, hs, rfl, fun _ => rfl⟩) hc htag hval
    (by simp) (fun hI a _ hi hk habs => by
      obtain ⟨s', h1, h2⟩ := replace_new (hQ.new (fun _ => rfl) (fun h => absurd hr h)) hT hI hi hk habs
      exact ⟨s', h1, False.elim, h2⟩)
    (fun hI o ho _ _ _ => by
      obtain ⟨s', m, f, h1, h2, h3, h4, h5⟩ := replace_gone hQ.gone hS hF hI ho
      exact ⟨s', h1, h4, Or.inl ⟨ho, m, f, h2, h3, h5⟩⟩)
    (fun hI a _ o ho hi hk hu => replace_both (fun h1 h2 => hQ.whole (Or.inr ⟨hr, rfl⟩) h1 h2)
      (hQ.replaced hr rfl) hS hT hc hF hI hi hk ho hu)
  refine ⟨_, ?_, hL.subOk (hQ.level (fun _ => Nat.le_refl _) (fun h => absurd hr h) hL)⟩
  unfold configReplace
  simp only [hg, h1, h2, h3, h4, bind, Except.bind, pure, Except.pure]

end

/-! ## All levels -/

/-- The source `S` is the source `R` without the children of the cases that the target `T` replaces. -/
inductive Sheds (d : Device) : Scope → Elem → Elem → Elem → Prop
  | mk {sc : Scope} {R S T : Elem}
      (same : ∀ s ∈ S.kids, ∃ r ∈ R.kids, uid d sc r = uid d sc s ∧
        ((∀ k ∈ T.kids, uid d sc k ≠ uid d sc s) → r = s))
      (peer : ∀ r ∈ R.kids, ∀ k ∈ T.kids, uid d sc r = uid d sc k → ∃ s ∈ S.kids, uid d sc s = uid d sc k)
      (gone : ∀ r ∈ R.kids, (∀ k ∈ T.kids, uid d sc k ≠ uid d sc r) → r ∈ S.kids ∨ Hidden d sc S T r)
      (lists : ∀ k ∈ T.kids, ∀ f, d.lookup sc k.tag = .ok f → f.node.ntype = .leafList →
        R.kids.filter (fun c => c.tag = k.tag) = S.kids.filter (fun c => c.tag = k.tag))
      (sub : ∀ r ∈ R.kids, ∀ s ∈ S.kids, ∀ k ∈ T.kids, uid d sc r = uid d sc k → uid d sc s = uid d sc k →
        ∀ f, d.lookup sc k.tag = .ok f → r = s ∨
          ((f.node.ntype = .container ∨ f.node.ntype = .list) ∧ ¬ SameConfig d (.node f.node) r k ∧
            ¬ SameConfig d (.node f.node) s k))
      (deep : ∀ r ∈ R.kids, ∀ s ∈ S.kids, ∀ k ∈ T.kids, uid d sc r = uid d sc k → uid d sc s = uid d sc k →
        ∀ f, d.lookup sc k.tag = .ok f → f.node.ntype = .container ∨ f.node.ntype = .list →
          Sheds d (.node f.node) r s k) :
      Sheds d sc R S T

theorem Sheds.refl {d : Device} : ∀ (T : Elem) {sc : Scope} {S : Elem}, Side d sc S → Sheds d sc S S T := by
  intro T
  induction T using Elem.ind with
  | h t n a x ks ih =>
    intro sc S hS
    have key : ∀ r ∈ S.kids, ∀ s ∈ S.kids, uid d sc r = uid d sc s → r = s := fun r hr s hs h =>
      List.inj_on_of_nodup_map hS.valid.indexable.nodup hr hs h
    refine ⟨fun s hs => ⟨s, hs, rfl, fun _ => rfl⟩, fun r hr k _ he => ⟨r, hr, he⟩, fun r hr _ => Or.inl hr,
      fun _ _ _ _ _ => rfl, fun r hr s hs k _ h1 h2 f _ => Or.inl (key r hr s hs (h1.trans h2.symm)), ?_⟩
    intro r hr s hs k hk h1 h2 f hf _
    obtain rfl := key r hr s hs (h1.trans h2.symm)
    exact ih k hk (hS.sub hr (by rw [tag_of_uid h1]; exact hf))

theorem sameLeafList_congr {d : Device} {sn : SNode} {t : QName} {a b b' : List Elem}
    (h : b.filter (fun c => c.tag = t) = b'.filter (fun c => c.tag = t)) :
    sameLeafList d sn t a b = sameLeafList d sn t a b' := by
  unfold sameLeafList
  rw [h]

theorem leafListsDiffer_congr {d : Device} {sc : Scope} {a b b' : List Elem} : ∀ {l : List Elem},
    (∀ k ∈ l, ∀ f, d.lookup sc k.tag = .ok f → f.node.ntype = .leafList →
      b.filter (fun c => c.tag = k.tag) = b'.filter (fun c => c.tag = k.tag)) →
    leafListsDiffer d sc a b l = leafListsDiffer d sc a b' l
  | [], _ => rfl
  | k :: l, h => by
    rw [leafListsDiffer, leafListsDiffer, leafListsDiffer_congr (l := l) (fun x hx => h x (by simp [hx]))]
    cases hf : d.lookup sc k.tag with
    | error e => rfl
    | ok f =>
      simp only [bind, Except.bind]
      by_cases hn : f.node.ntype = .leafList
      · have hk := h k (by simp) f hf hn
        have hany : b.any (fun c => c.tag = k.tag) = b'.any (fun c => c.tag = k.tag) := by
          have key : ∀ l : List Elem, l.any (fun c => c.tag = k.tag) = !(l.filter (fun c => c.tag = k.tag)).isEmpty := by
            intro l
            induction l with
            | nil => rfl
            | cons x r ih =>
              by_cases hx : x.tag = k.tag <;> simp_all
          rw [key, key, hk]
        rw [hany, sameLeafList_congr hk]
      · simp only [hn, false_and, if_false]

/-- `node_sub` succeeds, and its result is right for the source without the cases that are replaced. -/
theorem nodeSub_shed {d : Device} {opts : Opts} {q : Carrier} (hQ : Carry d opts q) : ∀ (T : Elem) {sc : Scope}
    (depth : Nat) {R S : Elem}, (opts.diffType = .replace → depth < opts.replaceDepth) → Side d sc R → Side d sc S → Side d sc T → S.tag = T.tag →
    parseTextAt d sc S = parseTextAt d sc T → CompatW ω d sc S T →
    (opts.diffType = .replace → R = S ∧ Deep d (FilledLevel d) sc S) → Sheds d sc R S T →
    ∃ D, nodeSub d opts T sc depth R = .ok D ∧ SubOk ω d (q.node depth) sc S T D ∧
      (opts.replace = .merge ∨ (∀ k ∈ T.kids, ∀ f, d.lookup sc k.tag = .ok f → f.node.ntype ≠ .leafList) →
        D.attrs = [] ∧ Diff ω d sc S T D) := by
  intro T
  induction T using Elem.ind with
  | h t n a x ks ih =>
    intro sc depth R S hdep hR hS hT htag hval hc hF hsh
    set T := Elem.mk t n a x ks with hTdef
    have hks : T.kids = ks := rfl
    have hinner : ∀ r ∈ R.kids, ∀ o ∈ S.kids, ∀ k ∈ T.kids, uid d sc r = uid d sc k → uid d sc o = uid d sc k →
        ∀ f, d.lookup sc k.tag = .ok f →
        f.node.ntype = .container ∨ f.node.ntype = .list →
        ∃ D, subInner d opts f.node depth (k, fun sc depth o => nodeSub d opts k sc depth o) r = .ok D ∧
          SubOk ω d (q.node (depth + 1)) (.node f.node) o k D := by
      intro r hr' o ho k hk hur hu f hf hn
      have hfr : d.lookup sc r.tag = .ok f := by rw [tag_of_uid hur]; exact hf
      have hro : opts.diffType = .replace → r = o := by
        intro h
        have hr' := hr'
        rw [(hF h).1] at hr'
        exact List.inj_on_of_nodup_map hS.valid.indexable.nodup hr' ho (hur.trans hu.symm)
      have hfo : d.lookup sc o.tag = .ok f := by rw [tag_of_uid hu]; exact hf
      have hv : parseTextAt d (.node f.node) o = parseTextAt d (.node f.node) k := by
        have v1 := hT.noText hk hf hn
        have v2 := hS.noText ho hfo hn
        unfold parseTextAt
        simp only [v1, v2]
      have hcs : CompatW ω d (.node f.node) o k := by
        cases hc with
        | mk _ _ _ sub _ _ =>
          exact sub o ho k hk ((hS.valid.same_iff hT.valid ho hk).1 hu) f hf hn
      unfold subInner
      split
      · rename_i hr
        obtain ⟨D, hD, hok, _⟩ := configReplace_ok hQ hr.1 (hS.sub ho hfo) (hT.sub hk hf)
          (tag_of_uid hu) hv hcs ((hF hr.1).2.sub' o ho f hfo)
        rw [hr.2] at hok
        rw [hro hr.1]
        exact ⟨D, hD, hok⟩
      · rename_i hr
        obtain ⟨D, hD, hok, _⟩ := ih k (by rw [← hks]; exact hk) (depth + 1) (fun h => by
            have := hdep h
            have hne : opts.replaceDepth ≠ depth + 1 := fun he => hr ⟨h, he⟩
            omega) (hR.sub hr' hfr) (hS.sub ho hfo) (hT.sub hk hf)
          (tag_of_uid hu) hv hcs (fun h => ⟨hro h, (hF h).2.sub' o ho f hfo⟩) (by
            cases hsh with
            | mk _ _ _ _ _ deep => exact deep r hr' o ho k hk hur hu f hf hn)
        exact ⟨D, hD, hok⟩
    obtain ⟨g, s1, s2, s3, st', other, φ, M, hg, h1, h2, h3, h4, h5, hL⟩ := loops
      (Q := q.kids depth) True (fun p : (Elem × SubFn) × Nat => p.1.1) Prod.snd
      (T.kids.map (fun k => (k, fun sc depth o => nodeSub d opts k sc depth o))).zipIdx
      (fun s p => subOnlySelf d sc opts s (p.1.1, p.2)) (subOnlyOther d sc opts) (subBoth d sc opts depth)
      hR hS hT (by cases hsh; assumption) (by cases hsh; assumption) hc htag hval
      (by rw [List.zipIdx_map, List.map_map]; exact List.map_id _)
      (fun hI a _ hi hk habs => by
        obtain ⟨s', h1, h2, h3⟩ := step_new hQ.new hT hc.full' hI hi hk habs
        exact ⟨s', h1, fun _ => h2, h3⟩)
      (fun {todo M s} hI o ho habs hM hN => by
        have hgone : o ∈ S.kids ∨ Hidden d sc S T o := by
          cases hsh with
          | mk _ _ gone _ _ _ => exact gone o ho habs
        rcases hgone with hin | hh
        · obtain ⟨s', m, f, h1, h2, h3, h4, h5⟩ := step_gone (opts := opts) hQ.gone hS hT hc hI hin habs
          exact ⟨s', h1, h4, Or.inl ⟨hin, m, f, h2, h3, h5⟩⟩
        · obtain ⟨s', h1, h2, h3⟩ := step_hidden (opts := opts) hR hI hT ho hh hM (hN trivial)
          exact ⟨s', h1, h2, Or.inr ⟨fun hin => hh.source o hin rfl, h3⟩⟩)
      (by
        rintro todo M s hI ⟨⟨k, fn⟩, i⟩ ha r hr hi hk hur
        obtain rfl : fn = fun sc depth o => nodeSub d opts k sc depth o := by
          rw [List.mem_zipIdx_iff_getElem?] at ha
          simp only [List.getElem?_map, Option.map_eq_some_iff, Prod.mk.injEq] at ha
          obtain ⟨_, _, rfl, rfl⟩ := ha
          rfl
        have hkm := List.mem_of_getElem? hk
        obtain ⟨f, hf, _⟩ := hT.valid.shape' k hkm
        obtain ⟨o, ho, hu⟩ : ∃ s ∈ S.kids, uid d sc s = uid d sc k := by
          cases hsh with
          | mk _ peer _ _ _ _ => exact peer r hr k hkm hur
        have hsub : r = o ∨ ((f.node.ntype = .container ∨ f.node.ntype = .list) ∧
            ¬ SameConfig d (.node f.node) r k ∧ ¬ SameConfig d (.node f.node) o k) := by
          cases hsh with
          | mk _ _ _ _ sub _ => exact sub r hr o ho k hkm hur hu f hf
        rcases hsub with rfl | ⟨hn, hne, hne'⟩
        · exact step_both (hQ.leaf (fun h => by have := hdep h.1; omega)) (hQ.keys (fun h => hdep h)) hS hT hc hI hi hk ho hu
            (hinner r hr r ho k hkm hu hu)
        · exact step_inner hR hS hT hc hI hi hk hr ho hu hur hf hn hne hne' (hinner r hr o ho k hkm hur hu f hf hn))
    obtain ⟨_, hTa, hD⟩ := hL.subOk (q := fun _ _ _ _ => True) trivial
    have hrest : ∀ differ : Bool, (opts.replace = .merge → differ = false) →
        (opts.replace = .replace → leafListsDiffer d sc T.kids S.kids T.kids = .ok differ) →
        nodeSub d opts T sc depth R = .ok (if differ then setOp T "replace" else T.setKids (st'.map Prod.snd)) := by
      intro differ hm hr
      rw [nodeSub_eq]
      unfold nodeSubBody
      have l1 := lookupAll_ok (d := d) (sc := sc) (l := T.kids) (fun k hk => by
        obtain ⟨f, hf, _⟩ := hT.valid.shape' k hk; exact ⟨f, hf⟩)
      have l2 := lookupAll_ok (d := d) (sc := sc) (l := R.kids) (fun k hk => by
        obtain ⟨f, hf, _⟩ := hR.valid.shape' k hk; exact ⟨f, hf⟩)
      cases ho : opts.replace with
      | merge =>
        rw [hm ho]
        simp only [bind, Except.bind, pure, Except.pure, Bool.false_eq_true, if_false, hg, h1, h2, h3, h4, h5]
      | replace =>
        have hll : leafListsDiffer d sc T.kids R.kids T.kids = .ok differ := by
          rw [← hr ho]
          refine leafListsDiffer_congr (fun k hk f hf hn => ?_)
          cases hsh with
          | mk _ _ _ lists _ _ => exact lists k hk f hf hn
        simp only [l1, l2, hll, bind, Except.bind, pure, Except.pure]
        cases differ with
        | true => rfl
        | false => simp only [Bool.false_eq_true, if_false, hg, h1, h2, h3, h4, h5]
    obtain ⟨differ, e1, e2, e3⟩ : ∃ differ : Bool, (opts.replace = .merge → differ = false) ∧
        (opts.replace = .replace → leafListsDiffer d sc T.kids S.kids T.kids = .ok differ) ∧
        (opts.replace = .merge ∨ (∀ k ∈ T.kids, ∀ f, d.lookup sc k.tag = .ok f → f.node.ntype ≠ .leafList) →
          differ = false) := by
      obtain ⟨r, h1, h2⟩ := leafListsDiffer_ok hS hT (l := T.kids) (fun _ h => h)
      cases hr : opts.replace with
      | merge => exact ⟨false, fun _ => rfl, (by simp), fun _ => rfl⟩
      | replace => exact ⟨r, (by simp), fun _ => h1, fun h => h2 (by simpa using h)⟩
    refine ⟨_, hrest differ e1 e2, ?_, ?_⟩
    · cases differ with
      | true => exact ⟨rfl, rfl, rfl, Or.inl ⟨rfl, fun _ _ _ h0 => by
        cases ho : opts.replace with
        | merge => exact absurd (e1 ho) (by simp)
        | replace =>
          have h := e2 ho
          rw [h0] at h
          exact absurd (leafListsDiffer_empty h) (by simp)⟩, hQ.whole (Or.inl (by
        cases ho : opts.replace with
        | merge => exact absurd (e1 ho) (by simp)
        | replace => exact ⟨rfl, e2 ho⟩)) hS hT⟩
      | false => exact (hL.subOk (hQ.level (fun h => Nat.le_of_lt (hdep h)) (fun _ => e2) hL)).1
    · intro h
      rw [e3 h]
      exact ⟨hTa, hD⟩

/-- `node_sub` succeeds, and its result is right. -/
theorem nodeSub_ok {d : Device} {opts : Opts} {q : Carrier} (hQ : Carry d opts q) (T : Elem) {sc : Scope}
    (depth : Nat) {S : Elem} (hdep : opts.diffType = .replace → depth < opts.replaceDepth) (hS : Side d sc S)
    (hT : Side d sc T) (htag : S.tag = T.tag) (hval : parseTextAt d sc S = parseTextAt d sc T) (hc : CompatW ω d sc S T)
    (hF : opts.diffType = .replace → Deep d (FilledLevel d) sc S) :
    ∃ D, nodeSub d opts T sc depth S = .ok D ∧ SubOk ω d (q.node depth) sc S T D ∧
      (opts.replace = .merge ∨ (∀ k ∈ T.kids, ∀ f, d.lookup sc k.tag = .ok f → f.node.ntype ≠ .leafList) →
        D.attrs = [] ∧ Diff ω d sc S T D) :=
  nodeSub_shed hQ T depth hdep hS hS hT htag hval hc (fun h => ⟨rfl, hF h⟩) (Sheds.refl T hS)

end NcDiff
