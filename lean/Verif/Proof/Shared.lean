import Verif.Spec.Shared
/-!
# Lemmas about several processes and one folder
-/

namespace NcDiff.Shared

section
variable {T : Tool}

/-! ## Texts -/

theorem torn_nil (t : Text) : Torn t [] := ⟨by simp, fun p c h => by simp at h⟩

theorem torn_self (t : Text) : Torn t t := ⟨Nat.le_refl _, fun _ _ h => .inr h⟩

/-- The bytes of a file after writing. -/
theorem overwrite_get {f bs : Text} {pos : Nat} (hb : bs ≠ []) (p : Nat) : (overwrite f pos bs)[p]? =
    if p < pos then some (f[p]?.getD 0) else if p < pos + bs.length then bs[p - pos]? else f[p]? := by
  unfold overwrite
  rw [if_neg hb]
  have hl : (f.take pos ++ List.replicate (pos - f.length) 0).length = pos := by
    rw [List.length_append, List.length_take, List.length_replicate]; omega
  rw [List.append_assoc (f.take pos ++ _), List.getElem?_append, hl]
  split
  · rename_i h
    rw [List.getElem?_append, List.length_take]
    by_cases hf : p < f.length
    · rw [if_pos (by omega), List.getElem?_take, if_pos h, List.getElem?_eq_getElem hf]; rfl
    · rw [if_neg (by omega), List.getElem?_replicate, if_pos (by omega), List.getElem?_eq_none (by omega)]; rfl
  · rename_i h
    rw [List.getElem?_append]
    by_cases hp : p < pos + bs.length
    · rw [if_pos (by omega), if_pos hp]
    · rw [if_neg (by omega), if_neg hp, List.getElem?_drop]
      congr 1; omega

theorem overwrite_length {f bs : Text} {pos : Nat} (hb : bs ≠ []) : (overwrite f pos bs).length = max f.length (pos + bs.length) := by
  unfold overwrite
  rw [if_neg hb]
  simp only [List.length_append, List.length_take, List.length_replicate, List.length_drop]
  omega

theorem chunk_get {t : Text} {pos k p : Nat} (hp : p < (((t.drop pos).take k)).length) :
    ((t.drop pos).take k)[p]? = t[pos + p]? := by
  rw [List.length_take] at hp
  rw [List.getElem?_take, if_pos (by omega), List.getElem?_drop]

theorem torn_overwrite {t f : Text} (hf : Torn t f) (pos k : Nat) : Torn t (overwrite f pos ((t.drop pos).take k)) := by
  by_cases hb : (t.drop pos).take k = []
  · unfold overwrite; rw [if_pos hb]; exact hf
  refine ⟨?_, fun p c h => ?_⟩
  · rw [overwrite_length hb]
    have h1 := hf.1
    have : ((t.drop pos).take k).length ≤ t.length - pos := by rw [List.length_take, List.length_drop]; omega
    have h2 : 0 < ((t.drop pos).take k).length := List.length_pos_iff.2 hb
    omega
  · rw [overwrite_get hb] at h
    split at h
    · cases hc : f[p]? with
      | none => rw [hc] at h; cases h; exact .inl rfl
      | some c' => rw [hc] at h; cases h; exact hf.2 p _ hc
    · split at h
      · rename_i h1 h2
        rw [chunk_get (by omega)] at h
        rw [show pos + (p - pos) = p by omega] at h
        exact .inr h
      · exact hf.2 p c h

theorem torn_read {t f got : Text} (hf : Torn t f) (hg : Torn t got) (k : Nat) : Torn t (got ++ (f.drop got.length).take k) := by
  refine ⟨?_, fun p c h => ?_⟩
  · rw [List.length_append, List.length_take, List.length_drop]
    have h1 := hf.1
    have h2 := hg.1
    omega
  · rw [List.getElem?_append] at h
    split at h
    · exact hg.2 p c h
    · rename_i hp
      rw [List.getElem?_take] at h
      split at h
      · rw [List.getElem?_drop, show got.length + (p - got.length) = p by omega] at h
        exact hf.2 p c h
      · cases h

/-! ## The invariant -/

/-- What a process has read or is writing. -/
def WorkOk (T : Tool) : Work → Prop
  | .idle => True
  | .reading name got => ∃ e, T.Out name (.ok e) ∧ Torn (T.text e) got
  | .missing _ => True
  | .writing name e _ => T.Out name (.ok e)

/-- The invariant. -/
structure Inv (T : Tool) (s : State) : Prop where
  files : Sound T s.files
  work : ∀ i, WorkOk T (s.procs i)

theorem Inv.now {s : State} (h : Inv T s) {w : Work} (hw : WorkOk T w) (i : Nat) : Inv T (s.now i w) := by
  refine ⟨h.files, fun j => ?_⟩
  unfold State.now
  simp only
  split
  · exact hw
  · exact h.work j

theorem Inv.put {s : State} (h : Inv T s) {name : String} {e : Elem} (he : T.Out name (.ok e)) {t : Text} (ht : Torn (T.text e) t) :
    Inv T (s.put name t) := by
  refine ⟨fun x u hu => ?_, h.work⟩
  unfold State.put at hu
  simp only at hu
  split at hu
  · rename_i hx; cases hu; subst hx; exact ⟨e, he, ht⟩
  · exact h.files x u hu

theorem ok_unique (hd : Deterministic T) {name : String} {e e' : Elem} (h : T.Out name (.ok e)) (h' : T.Out name (.ok e')) : e = e' :=
  Except.ok.inj (hd _ _ _ h h')

theorem inv_step (hd : Deterministic T) {s s' : State} {l : Label} (h : Inv T s) (hs : Step T s l s') : Inv T s' := by
  cases hs with
  | absent h1 h2 => refine h.now ?_ _; trivial
  | @opens i name t h1 h2 =>
    obtain ⟨e, he, _⟩ := h.files _ _ h2
    refine h.now ?_ _; exact ⟨e, he, torn_nil _⟩
  | @reads i name got t k h1 h2 =>
    have hw := h.work i
    rw [h1] at hw
    obtain ⟨e, he, hg⟩ := hw
    obtain ⟨e', he', ht⟩ := h.files _ _ h2
    cases ok_unique hd he he'
    refine h.now ?_ _; exact ⟨e, he, torn_read ht hg k⟩
  | found h1 h2 h3 h4 => refine h.now ?_ _; trivial
  | gives_up h1 h2 => refine h.now ?_ _; trivial
  | bad h1 h2 h3 h4 => refine h.now ?_ _; trivial
  | fails h1 h2 => refine h.now ?_ _; trivial
  | creates h1 h2 => refine (h.put h2 (torn_nil _)).now ?_ _; exact h2
  | @writes i name e pos t k h1 h2 =>
    have hw := h.work i
    rw [h1] at hw
    obtain ⟨e', he', ht⟩ := h.files _ _ h2
    cases ok_unique hd hw he'
    refine (h.put hw (torn_overwrite ht pos k)).now ?_ _; exact hw
  | closes h1 h2 => refine h.now ?_ _; trivial
  | dies i => refine h.now ?_ _; trivial

theorem inv_run (hd : Deterministic T) {s s' : State} {h : List Label} (hi : Inv T s) (hr : Run T s h s') : Inv T s' := by
  induction hr with
  | start => exact hi
  | step _ hs ih => exact inv_step hd ih hs

theorem inv_start {s : State} (hf : Fresh s) (hs : Sound T s.files) : Inv T s :=
  ⟨hs, fun i => by rw [hf i]; trivial⟩

theorem result_ok (hR : Robust T) {s s' : State} (hi : Inv T s) {i : Nat} {name : String} {r : Except Err Elem}
    (hs : Step T s (.returns i name r) s') : T.Out name r := by
  cases hs with
  | found h1 h2 h3 h4 =>
    have hw := hi.work i
    rw [h1] at hw
    obtain ⟨e', he, hg⟩ := hw
    rcases (hR _ _ he).2 _ hg with h | h
    · rw [h] at h4; cases h4
    · rw [h] at h4; cases h4; exact he
  | fails h1 h2 => exact h2
  | closes h1 h2 =>
    have hw := hi.work i
    rw [h1] at hw
    exact hw

/-! ## Files without a process that writes -/

/-- Every byte is there or will be written. -/
def Covered (T : Tool) (s : State) : Prop := ∀ name t, s.files name = some t → ∃ e, T.Out name (.ok e) ∧ Torn (T.text e) t ∧
  ∀ p, p < (T.text e).length → t[p]? = (T.text e)[p]? ∨ ∃ i pos, s.procs i = .writing name e pos ∧ pos ≤ p

theorem Covered.now {s : State} (h : Covered T s) {i : Nat} (hi : ∀ name e pos, s.procs i = .writing name e pos → (T.text e).length ≤ pos)
    (w : Work) : Covered T (s.now i w) := by
  intro name t ht
  obtain ⟨e, he, htorn, hp⟩ := h name t ht
  refine ⟨e, he, htorn, fun p hlt => ?_⟩
  rcases hp p hlt with h | ⟨j, pos, hj, hle⟩
  · exact .inl h
  · refine .inr ⟨j, pos, ?_, hle⟩
    have hne : j ≠ i := by
      rintro rfl
      have := hi _ _ _ hj
      omega
    unfold State.now
    simp only
    rw [if_neg hne]
    exact hj

theorem covered_step (hd : Deterministic T) {s s' : State} {l : Label} (hinv : Inv T s) (h : Covered T s) (hs : Step T s l s')
    (hl : ∀ i, l ≠ .dies i) : Covered T s' := by
  cases hs with
  | absent h1 h2 => exact h.now (fun _ _ _ e => by rw [h1] at e; cases e) _
  | opens h1 h2 => exact h.now (fun _ _ _ e => by rw [h1] at e; cases e) _
  | reads k h1 h2 => exact h.now (fun _ _ _ e => by rw [h1] at e; cases e) _
  | found h1 h2 h3 h4 => exact h.now (fun _ _ _ e => by rw [h1] at e; cases e) _
  | gives_up h1 h2 => exact h.now (fun _ _ _ e => by rw [h1] at e; cases e) _
  | bad h1 h2 h3 h4 => exact h.now (fun _ _ _ e => by rw [h1] at e; cases e) _
  | fails h1 h2 => exact h.now (fun _ _ _ e => by rw [h1] at e; cases e) _
  | @creates i name e h1 h2 =>
    intro x t ht
    simp only [State.now, State.put] at ht
    by_cases hx : x = name
    · subst hx
      rw [if_pos rfl] at ht
      cases ht
      refine ⟨e, h2, torn_nil _, fun p _ => .inr ⟨i, 0, ?_, Nat.zero_le _⟩⟩
      simp [State.now]
    · rw [if_neg hx] at ht
      obtain ⟨e', he, htorn, hp⟩ := h x t ht
      refine ⟨e', he, htorn, fun p hlt => ?_⟩
      rcases hp p hlt with h | ⟨j, pos, hj, hle⟩
      · exact .inl h
      · refine .inr ⟨j, pos, ?_, hle⟩
        have hne : j ≠ i := by rintro rfl; rw [h1] at hj; cases hj
        simp only [State.now, State.put]
        rw [if_neg hne]
        exact hj
  | @writes i name e pos t k h1 h2 =>
    intro x u hu
    simp only [State.now, State.put] at hu
    by_cases hx : x = name
    · subst hx
      rw [if_pos rfl] at hu
      cases hu
      have hw := hinv.work i
      rw [h1] at hw
      obtain ⟨e', he', ht, hp⟩ := h _ _ h2
      cases ok_unique hd hw he'
      refine ⟨e, hw, torn_overwrite ht pos k, fun p hlt => ?_⟩
      by_cases hb : ((T.text e).drop pos).take k = []
      · have hlen : (((T.text e).drop pos).take k).length = 0 := by rw [hb]; rfl
        rcases hp p hlt with h | ⟨j, q, hj, hle⟩
        · left; unfold overwrite; rw [if_pos hb]; exact h
        · right
          by_cases hji : j = i
          · subst hji
            rw [h1] at hj
            cases hj
            exact ⟨j, pos, by simp [State.now, hlen], hle⟩
          · exact ⟨j, q, by simp only [State.now, State.put]; rw [if_neg hji]; exact hj, hle⟩
      · by_cases h3 : pos + (((T.text e).drop pos).take k).length ≤ p
        · right
          exact ⟨i, _, by simp [State.now], h3⟩
        by_cases h4 : pos ≤ p
        · left
          rw [overwrite_get hb, if_neg (by omega), if_pos (by omega), chunk_get (by omega), show pos + (p - pos) = p by omega]
        · rcases hp p hlt with h | ⟨j, q, hj, hle⟩
          · left
            rw [overwrite_get hb, if_pos (by omega), h, List.getElem?_eq_getElem hlt]
            rfl
          · have hji : j ≠ i := by
              rintro rfl
              rw [h1] at hj
              cases hj
              omega
            right
            exact ⟨j, q, by simp only [State.now, State.put]; rw [if_neg hji]; exact hj, hle⟩
    · rw [if_neg hx] at hu
      obtain ⟨e', he, htorn, hp⟩ := h x u hu
      refine ⟨e', he, htorn, fun p hlt => ?_⟩
      rcases hp p hlt with h | ⟨j, q, hj, hle⟩
      · exact .inl h
      · refine .inr ⟨j, q, ?_, hle⟩
        have hne : j ≠ i := by rintro rfl; rw [h1] at hj; cases hj; exact hx rfl
        simp only [State.now, State.put]
        rw [if_neg hne]
        exact hj
  | closes h1 h2 => exact h.now (fun _ _ _ e => by rw [h1] at e; cases e; exact h2) _
  | dies i => exact absurd rfl (hl i)

theorem covered_start {s : State} (hw : Whole T s.files) : Covered T s := by
  intro name t ht
  obtain ⟨e, he, rfl⟩ := hw name t ht
  exact ⟨e, he, torn_self _, fun p _ => .inl rfl⟩

theorem covered_run (hd : Deterministic T) {s s' : State} {h : List Label} (hi : Inv T s) (hc : Covered T s) (hr : Run T s h s')
    (hl : ∀ l ∈ h, ∀ i, l ≠ .dies i) : Covered T s' := by
  induction hr with
  | start => exact hc
  | step hr hs ih =>
    exact covered_step hd (inv_run hd hi hr) (ih fun l hm => hl l (by simp [hm])) hs (hl _ (by simp))

theorem Covered.whole {s : State} (h : Covered T s) {name : String} (hu : Unwritten s name) {t : Text} (ht : s.files name = some t) :
    ∃ e, T.Out name (.ok e) ∧ t = T.text e := by
  obtain ⟨e, he, htorn, hp⟩ := h name t ht
  refine ⟨e, he, List.ext_getElem? fun p => ?_⟩
  by_cases hlt : p < (T.text e).length
  · rcases hp p hlt with h | ⟨i, pos, hi, _⟩
    · exact h
    · exact absurd hi (hu i e pos)
  · rw [List.getElem?_eq_none (by have := htorn.1; omega), List.getElem?_eq_none (by omega)]

theorem whole_sound {files : String → Option Text} (h : Whole T files) : Sound T files := fun name t ht => by
  obtain ⟨e, he, rfl⟩ := h name t ht
  exact ⟨e, he, torn_self _⟩

/-! ## A process alone -/

theorem now_now (s : State) (i : Nat) (w w' : Work) : (s.now i w).now i w' = s.now i w' := by
  unfold State.now
  simp only [State.mk.injEq, true_and]
  funext j
  split <;> rfl

theorem now_procs (s : State) (i : Nat) (w : Work) : (s.now i w).procs i = w := by simp [State.now]

theorem overwrite_all (t : Text) : overwrite [] 0 t = t := by
  unfold overwrite
  split
  · rename_i h; exact h.symm
  · simp

/-- From `missing` to the end. -/
theorem alone_missing {s : State} {i : Nat} {name : String} (hi : s.procs i = .missing name) {r : Except Err Elem} (hr : T.Out name r) :
    ∃ h s1 s2, Run T s h s1 ∧ (∀ l ∈ h, l = .acts i) ∧ Step T s1 (.returns i name r) s2 ∧
      (∀ e, r = .ok e → s2.files name = some (T.text e)) ∧ ∀ j, j ≠ i → s2.procs j = s.procs j := by
  cases r with
  | error x => exact ⟨[], s, _, .start, by simp, .fails hi hr, by simp, fun j hj => by simp [State.now, hj]⟩
  | ok e =>
    have r1 : Run T s [.acts i] _ := .step .start (.creates hi hr)
    have r2 := r1.step (.writes (i := i) (name := name) (e := e) (pos := 0) (t := []) (T.text e).length (now_procs _ _ _)
      (by simp [State.now, State.put]))
    refine ⟨_, _, _, r2, by simp, .closes (pos := 0 + (T.text e).length) ?_ (by omega), ?_, ?_⟩
    · simp [State.now]
    · intro e' he
      cases he
      simp [State.now, State.put, overwrite_all]
    · intro j hj
      simp [State.now, State.put, hj]

/-- The file that a process uses is there. -/
def Opened (s : State) : Prop := ∀ i name, ((∃ got, s.procs i = .reading name got) ∨ ∃ e pos, s.procs i = .writing name e pos) →
  ∃ t, s.files name = some t

theorem Opened.now {s : State} (h : Opened s) {i : Nat} {w : Work} (hw : ∀ name, ((∃ got, w = .reading name got) ∨
    ∃ e pos, w = .writing name e pos) → ∃ t, s.files name = some t) : Opened (s.now i w) := by
  intro j name hj
  by_cases hji : j = i
  · subst hji; rw [now_procs] at hj; exact hw name hj
  · refine h j name ?_
    simp only [State.now, if_neg hji] at hj
    exact hj

theorem Opened.put {s : State} (h : Opened s) (name : String) (t : Text) : Opened (s.put name t) := by
  intro j x hj
  obtain ⟨u, hu⟩ := h j x hj
  by_cases hx : x = name
  · exact ⟨t, by simp [State.put, hx]⟩
  · exact ⟨u, by simp [State.put, hx, hu]⟩

theorem opened_step {s s' : State} {l : Label} (h : Opened s) (hs : Step T s l s') : Opened s' := by
  cases hs with
  | absent h1 h2 => exact h.now (by rintro _ (⟨_, e⟩ | ⟨_, _, e⟩) <;> cases e)
  | opens h1 h2 => exact h.now (by rintro _ (⟨_, e⟩ | ⟨_, _, e⟩) <;> cases e; exact ⟨_, h2⟩)
  | reads k h1 h2 => exact h.now (by rintro _ (⟨_, e⟩ | ⟨_, _, e⟩) <;> cases e; exact ⟨_, h2⟩)
  | found h1 h2 h3 h4 => exact h.now (by rintro _ (⟨_, e⟩ | ⟨_, _, e⟩) <;> cases e)
  | gives_up h1 h2 => exact h.now (by rintro _ (⟨_, e⟩ | ⟨_, _, e⟩) <;> cases e)
  | bad h1 h2 h3 h4 => exact h.now (by rintro _ (⟨_, e⟩ | ⟨_, _, e⟩) <;> cases e)
  | fails h1 h2 => exact h.now (by rintro _ (⟨_, e⟩ | ⟨_, _, e⟩) <;> cases e)
  | creates h1 h2 =>
    exact (h.put _ _).now (by rintro _ (⟨_, e⟩ | ⟨_, _, e⟩) <;> cases e; exact ⟨[], by simp [State.put]⟩)
  | writes k h1 h2 =>
    exact (h.put _ _).now (by rintro _ (⟨_, e⟩ | ⟨_, _, e⟩) <;> cases e; simp [State.put])
  | closes h1 h2 => exact h.now (by rintro _ (⟨_, e⟩ | ⟨_, _, e⟩) <;> cases e)
  | dies i => exact h.now (by rintro _ (⟨_, e⟩ | ⟨_, _, e⟩) <;> cases e)

theorem opened_run {s s' : State} {h : List Label} (ho : Opened s) (hr : Run T s h s') : Opened s' := by
  induction hr with
  | start => exact ho
  | step _ hs ih => exact opened_step ih hs

theorem opened_start {s : State} (hf : Fresh s) : Opened s := by
  rintro i name (⟨_, e⟩ | ⟨_, _, e⟩) <;> rw [hf i] at e <;> cases e

theorem Run.trans {s s1 s2 : State} {h1 h2 : List Label} (r1 : Run T s h1 s1) (r2 : Run T s1 h2 s2) : Run T s (h2 ++ h1) s2 := by
  induction r2 with
  | start => exact r1
  | step _ hs ih => exact ih.step hs

theorem Finishes.before {s s1 s2 : State} {i : Nat} {name : String} {r : Except Err Elem} {h : List Label} (hr : Run T s h s1)
    (hh : ∀ l ∈ h, l = .acts i) (hf : Finishes T s1 i name r s2) : Finishes T s i name r s2 := by
  obtain ⟨h', s', hr', hh', hs⟩ := hf
  exact ⟨h' ++ h, s', hr.trans hr', fun l hl => (List.mem_append.1 hl).elim (hh' l) (hh l), hs⟩

theorem finishes_missing {s : State} {i : Nat} {name : String} (hi : s.procs i = .missing name) {r : Except Err Elem}
    (hr : T.Out name r) : ∃ s2, Finishes T s i name r s2 ∧ ∀ e, r = .ok e → s2.files name = some (T.text e) := by
  obtain ⟨h, s1, s2, h1, h2, h3, h4, _⟩ := alone_missing hi hr
  exact ⟨s2, ⟨h, s1, h1, h2, h3⟩, h4⟩

theorem finishes_reading (hR : Robust T) {s : State} {i : Nat} {name : String} {got t : Text} (hi : s.procs i = .reading name got)
    (ht : s.files name = some t) (hw : ∃ e, T.Out name (.ok e)) :
    ∃ r s2, Finishes T s i name r s2 ∧ ∀ e, got = [] → r = .ok e → ∃ u, s2.files name = some u ∧ T.parse u = some e := by
  obtain ⟨e, he⟩ := hw
  have r1 : Run T s [.acts i] _ := .step .start (.reads t.length hi ht)
  have hlen : t.length ≤ (got ++ (t.drop got.length).take t.length).length := by
    rw [List.length_append, List.length_take, List.length_drop]; omega
  cases hp : T.parse (got ++ (t.drop got.length).take t.length) with
  | some e' =>
    refine ⟨.ok e', _, ⟨_, _, r1, by simp, .found (now_procs _ _ _) (t := t) ht hlen hp⟩, ?_⟩
    rintro _ rfl ⟨⟩
    refine ⟨t, ht, ?_⟩
    simpa using hp
  | none =>
    have r2 := r1.step (.bad (now_procs _ _ _) (t := t) ht hlen hp)
    obtain ⟨s2, hf, h4⟩ := finishes_missing (now_procs _ _ _) he
    refine ⟨.ok e, s2, hf.before r2 (by simp), ?_⟩
    rintro _ - ⟨⟩
    exact ⟨_, h4 e rfl, (hR _ _ he).1⟩

theorem finishes_writing {s : State} {i : Nat} {name : String} {e : Elem} {pos : Nat} {t : Text}
    (hi : s.procs i = .writing name e pos) (ht : s.files name = some t) : ∃ s2, Finishes T s i name (.ok e) s2 := by
  have r1 : Run T s [.acts i] _ := .step .start (.writes (T.text e).length hi ht)
  refine ⟨_, _, _, r1, by simp, .closes (now_procs _ _ _) ?_⟩
  rw [List.length_take, List.length_drop]
  omega

end
end NcDiff.Shared
