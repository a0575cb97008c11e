import Verif.Proof.Yang
/-!
# Executable conditions on modules and documents, for examples
-/

namespace NcDiff.Compile

instance (i : Info) (k v : String) : Decidable (i.Says k v) := decidable_of_iff _ searchOne_says
instance (ns : List (String × String)) (q : QName) (s : Stmt) : Decidable (Named ns q s) := by unfold Named; infer_instance
instance (ns : List (String × String)) (l : List Stmt) : Decidable (DistinctNames ns l) := by
  unfold DistinctNames; infer_instance
instance (c : Char) : Decidable (White c) := by unfold White; infer_instance
instance (s : String) : Decidable (PlainName s) := by unfold PlainName; infer_instance

instance (s : Stmt) : Decidable (PlainType s) :=
  match h : s.info.type with
  | none => isTrue (by intro t ht; rw [h] at ht; cases ht)
  | some t => decidable_of_iff (t.arg.toList.take 11 ≠ "identityref".toList ∧ t.arg ≠ "instance-identifier")
      ⟨fun g t' ht => by rw [h] at ht; cases ht; exact g, fun g => g t h⟩

instance (s : Stmt) : Decidable (Simple s) := by unfold Simple; infer_instance

/-- The names of a key statement without prefixes. -/
def keyWords (v : String) : List String := (keyParts v.toList).map String.ofList

theorem spelled_space {v : List Char} {l : List (Option String × String)} (h : Spelled v l) : Spelled (' ' :: v) l := by
  cases h with
  | nil hs => exact .nil (by simpa using hs)
  | @cons a b x l hs h1 h2 h3 h4 =>
    rw [← List.cons_append, ← List.cons_append]
    exact .cons (by simpa using hs) h1 h2 h3 h4

theorem spelled_words {v : List Char} (h : ∀ w ∈ keyParts v, PlainName (String.ofList w)) :
    Spelled v ((keyParts v).map fun w => (none, String.ofList w)) := by
  induction hn : v.length using Nat.strongRecOn generalizing v with
  | ind n ih =>
    subst hn
    cases v with
    | nil => exact .nil (by simp)
    | cons c r =>
      by_cases hc : c = ' '
      · subst hc
        have hk : keyParts (' ' :: r) = keyParts r := keyParts_space [] r
        rw [hk] at h ⊢
        exact spelled_space (ih _ (by simp) h rfl)
      · cases hs : splitSpace (c :: r) with
        | nil => rw [splitSpace, if_neg hc] at hs; split at hs <;> cases hs
        | cons p ps =>
          obtain ⟨b, hb, hsp, hk⟩ := splitSpace_head hs
          have hp : p ≠ [] := by
            rintro rfl
            rw [List.nil_append] at hb
            rw [← hb] at hsp
            exact hc (hsp c rfl)
          have hv : keyParts (c :: r) = p :: keyParts b := by rw [keyParts, hs, List.filter_cons, if_pos (by simpa using hp), hk]
          rw [hv] at h ⊢
          have hlt : b.length < (c :: r).length := by
            rw [hb, List.length_append]
            have := List.length_pos_iff.2 hp
            omega
          have := Spelled.cons (a := []) (x := (none, String.ofList p)) (by simp) (h p (by simp)) (by simp) hsp
            (ih _ hlt (fun w hw => h w (by simp [hw])) rfl)
          simpa [hb, keyName] using this

/-- Executable `Proper`, for keys without prefixes. -/
def properB (rd : Bool) (ns : List (String × String)) (s : Stmt) : Bool :=
  decide (DistinctNames ns (visible s.kids)) &&
  (match s.info.searchOne "key" with
    | none => decide (∀ c ∈ s.kids, c.info.isKey = false)
    | some v => if s.info.keyword = "list" then decide ((∀ x ∈ keyWords v, PlainName x) ∧
        (keyWords v).Nodup ∧ (∀ n ∈ keyWords v, ∃ c ∈ s.kids, c.info.arg = n ∧ c.info.isKey = true) ∧
        (∀ c ∈ s.kids, c.info.isKey = true → c.info.arg ∈ keyWords v) ∧
        s.kids.Pairwise (fun a b => a.info.arg ≠ b.info.arg)) else decide (∀ c ∈ s.kids, c.info.isKey = false)) &&
  decide (s.info.isKey = true → s.info.keyword = "leaf") &&
  decide (s.info.isKey = true → PlainType s ∧ s.info.defaults = [] ∧ ¬ s.info.Says "status" "obsolete" ∧
    (rd = true → ¬ s.info.Says "status" "deprecated")) &&
  decide (s.info.defaults ≠ [] → PlainType s) && decide (s.info.keyword = "leaf-list" → PlainType s)

theorem firstNamed_of {l : List Stmt} (h : l.Pairwise (fun a b => a.info.arg ≠ b.info.arg)) {c : Stmt} (hc : c ∈ l) :
    FirstNamed l c := by
  obtain ⟨a, b, rfl⟩ := List.append_of_mem hc
  exact ⟨a, b, rfl, fun y hy => (List.pairwise_append.1 h).2.2 y hy c (by simp)⟩

theorem properB_sound {rd : Bool} {ns : List (String × String)} {s : Stmt} (h : properB rd ns s = true) : Proper rd ns s := by
  simp only [properB, Bool.and_eq_true, decide_eq_true_eq] at h
  obtain ⟨⟨⟨⟨⟨h1, h2⟩, h3⟩, h4⟩, h5⟩, h6⟩ := h
  refine ⟨h1, ?_, ?_, h3, h4, h5, h6⟩
  · intro v hl hv
    rw [searchOne_says.2 hv] at h2
    simp only [hl, if_true, decide_eq_true_eq] at h2
    obtain ⟨b, c, e, f, g⟩ := h2
    have hm : ((keyWords v).map fun n => ((none, n) : Option String × String)).map Prod.snd = keyWords v := by
      rw [List.map_map]; simp [Function.comp_def]
    refine ⟨(keyWords v).map fun n => (none, n), ?_, by rw [hm]; exact c, by rw [hm]; exact e, ?_⟩
    · rw [keyWords, List.map_map]
      exact spelled_words fun w hw => b _ (List.mem_map_of_mem hw)
    · rw [hm]
      exact fun c' hc' hk' => ⟨f c' hc' hk', firstNamed_of g hc'⟩
  · rintro hl
    cases hs : s.info.searchOne "key" with
    | none => rw [hs] at h2; simpa using h2
    | some v =>
      rw [hs] at h2
      rcases hl with hl | hl
      · simpa [hl] using h2
      · exact absurd (searchOne_says.1 hs) (hl v)

mutual
/-- Executable `Everywhere`. -/
def everyB (P : Stmt → Bool) : Stmt → Bool
  | .mk i ks => P (.mk i ks) && everyListB P ks
/-- See `everyB`. -/
def everyListB (P : Stmt → Bool) : List Stmt → Bool
  | [] => true
  | k :: r => everyB P k && everyListB P r
end

mutual
theorem everyB_sound {P : Stmt → Bool} : ∀ (s : Stmt), everyB P s = true → Everywhere (fun s => P s = true) s
  | .mk i ks, h => by
    rw [everyB, Bool.and_eq_true] at h
    exact .mk h.1 (everyListB_sound ks h.2)
theorem everyListB_sound {P : Stmt → Bool} : ∀ (l : List Stmt), everyListB P l = true → ∀ s ∈ l, Everywhere (fun s => P s = true) s
  | [], _, _, h => by cases h
  | k :: r, h, s, hs => by
    rw [everyListB, Bool.and_eq_true] at h
    have h1 := everyB_sound k h.1
    rcases List.mem_cons.1 hs with rfl | hs
    · exact h1
    · exact everyListB_sound r h.2 s hs
end

theorem Everywhere.imp {P Q : Stmt → Prop} (hpq : ∀ s, P s → Q s) {s : Stmt} (h : Everywhere P s) : Everywhere Q s := by
  induction h with
  | mk here _ ih => exact .mk (hpq _ here) ih

/-- Executable `ProperModules`. -/
def properModulesB (rd : Bool) (mods : List Module) : Bool :=
  decide ((mods.map Module.name).Nodup) && mods.all (fun m => decide (DistinctNames m.ns m.kids)) &&
  mods.all (fun m => decide (∀ s ∈ m.kids, s.info.keyword ≠ "choice" ∧ s.info.keyword ≠ "case")) &&
  decide (∀ m ∈ mods, ∀ m' ∈ mods, ∀ s ∈ m.kids, ∀ s' ∈ m'.kids, m.name = m'.name ∨ s.info.arg ≠ s'.info.arg ∨
    m.ns.lookup s.info.module ≠ m'.ns.lookup s'.info.module) &&
  mods.all fun m => everyListB (properB rd m.ns) m.kids

theorem properModulesB_sound {rd : Bool} {mods : List Module} (h : properModulesB rd mods = true) : ProperModules rd mods := by
  simp only [properModulesB, Bool.and_eq_true, decide_eq_true_eq, List.all_eq_true] at h
  obtain ⟨⟨⟨⟨h1, h2⟩, h3⟩, h4⟩, h5⟩ := h
  refine ⟨h1, h2, h3, ?_, fun m hm s hs => (everyListB_sound _ (h5 m hm) s hs).imp fun _ => properB_sound⟩
  intro m hm m' hm' s hs s' hs' q hq hq'
  rcases h4 m hm m' hm' s hs s' hs' with h | h | h
  · exact h
  · exact absurd (hq.2.symm.trans hq'.2) h
  · exact absurd (hq.1.trans hq'.1.symm) h

/-- Executable `∀ q, Named ns q c → P q`. -/
def namedAllB (ns : List (String × String)) (c : Stmt) (P : QName → Bool) : Bool :=
  match ns.lookup c.info.module with
  | none => true
  | some u => P ⟨u, c.info.arg⟩

theorem namedAllB_sound {ns : List (String × String)} {c : Stmt} {P : QName → Bool} (h : namedAllB ns c P = true) :
    ∀ q, Named ns q c → P q = true := by
  rintro ⟨u, n⟩ ⟨h1, h2⟩
  simp only at h1 h2
  unfold namedAllB at h
  rw [h1] at h
  rw [h2]
  exact h

/-- Executable `ValueOf`, without instance identifiers. -/
def valueB (d : Device) (s : Stmt) (k : Elem) : Bool :=
  decide (PlainType s) ||
  match s.info.type, k.text with
  | some ty, some t => decide (ty.arg.toList.take 11 = "identityref".toList) &&
      (match identityOf k.nsmap t.toList with
        | some v => decide (OwnName d v.1)
        | none => false) &&
      (IdentityRef.default d k.tag k.nsmap t.toList).toOption.isSome
  | _, _ => false

theorem valueB_sound {d : Device} {s : Stmt} {k : Elem} (h : valueB d s k = true) : ValueOf d s k := by
  unfold valueB at h
  rw [Bool.or_eq_true] at h
  rcases h with h | h
  · exact Or.inl (of_decide_eq_true h)
  · split at h
    · rename_i ty t hty htx
      simp only [Bool.and_eq_true, decide_eq_true_eq] at h
      obtain ⟨⟨h1, h2⟩, h4⟩ := h
      refine Or.inr ⟨ty, hty, Or.inl ⟨h1, fun t' ht' => ?_⟩⟩
      rw [htx] at ht'
      cases ht'
      constructor
      · cases hl : identityOf k.nsmap t.toList with
        | none => rw [hl] at h2; cases h2
        | some v => rw [hl] at h2; exact ⟨v.1, v.2, rfl, of_decide_eq_true h2⟩
      · cases hd : IdentityRef.default d k.tag k.nsmap t.toList with
        | error e => rw [hd] at h4; cases h4
        | ok r => exact ⟨r, rfl⟩
    · cases h

/-- A text that can be quoted in a predicate. -/
def quotedB (e : Elem) : Bool :=
  match e.text with
  | none => false
  | some t => decide ('\'' ∉ t.toList)

theorem quotedB_sound {e : Elem} (h : quotedB e = true) : ∃ t, e.text = some t ∧ '\'' ∉ t.toList := by
  unfold quotedB at h
  split at h
  · cases h
  · rename_i t ht
    exact ⟨t, ht, of_decide_eq_true h⟩

/-- Executable `NodeOf`. -/
def nodeB (d : Device) (ns : List (String × String)) (s : Stmt) (k : Elem) : Bool :=
  decide (s.info.keyword ∈ ["container", "leaf", "leaf-list", "list"]) &&
  decide (s.info.keyword = "container" ∨ s.info.keyword = "list" → k.text = none) &&
  (!decide (s.info.keyword = "leaf" ∨ s.info.keyword = "leaf-list") || (k.kids.isEmpty && valueB d s k)) &&
  (!decide (s.info.keyword = "list") || s.kids.all fun c => !c.info.isKey ||
    namedAllB ns c fun q => decide ((k.childrenWith q).length = 1)) &&
  decide (s.info.Says "ordered-by" "user" → (s.info.keyword = "leaf-list" → k.text ≠ none)) &&
  (!decide (s.info.Says "ordered-by" "user" ∧ s.info.keyword = "list") || s.kids.all fun c => !c.info.isKey ||
    namedAllB ns c fun q => decide (q.ns ≠ "") && (k.childrenWith q).all quotedB)

theorem nodeB_sound {d : Device} {ns : List (String × String)} {s : Stmt} {k : Elem} (h : nodeB d ns s k = true) :
    NodeOf d ns s k := by
  simp only [nodeB, Bool.and_eq_true, decide_eq_true_eq] at h
  obtain ⟨⟨⟨⟨⟨h1, h2⟩, h3⟩, h4⟩, h5⟩, h6⟩ := h
  refine ⟨h1, h2, ?_, ?_, fun ho => ⟨h5 ho, ?_⟩⟩
  · intro hk
    rw [decide_eq_true hk] at h3
    simp only [Bool.not_true, Bool.false_or, Bool.and_eq_true, List.isEmpty_iff] at h3
    exact ⟨h3.1, valueB_sound h3.2⟩
  · intro hl c hc hk q hq
    rw [decide_eq_true hl] at h4
    simp only [Bool.not_true, Bool.false_or, List.all_eq_true] at h4
    have := h4 c hc
    rw [hk] at this
    have := of_decide_eq_true (namedAllB_sound (by simpa using this) q hq)
    exact List.length_eq_one_iff.1 this
  · intro hl c hc hk q hq
    rw [decide_eq_true (And.intro ho hl)] at h6
    simp only [Bool.not_true, Bool.false_or, List.all_eq_true] at h6
    have := h6 c hc
    rw [hk] at this
    have := namedAllB_sound (by simpa using this) q hq
    simp only [Bool.and_eq_true, decide_eq_true_eq, List.all_eq_true] at this
    exact ⟨by simpa using this.1, fun e he => quotedB_sound (this.2 e he)⟩

/-- Executable `Distinct`. -/
def distinctB (ns : List (String × String)) (s : Stmt) (x y : Elem) : Bool :=
  decide (s.info.keyword = "leaf-list" ∧ x.text ≠ y.text) ||
  (decide (s.info.keyword = "list") && s.kids.any fun c => c.info.isKey && (match ns.lookup c.info.module with
    | none => false
    | some u => decide (keyTexts x ⟨u, c.info.arg⟩ ≠ keyTexts y ⟨u, c.info.arg⟩)))

theorem distinctB_sound {ns : List (String × String)} {s : Stmt} {x y : Elem} (h : distinctB ns s x y = true) :
    Distinct ns s x y := by
  simp only [distinctB, Bool.or_eq_true, Bool.and_eq_true, decide_eq_true_eq, List.any_eq_true] at h
  rcases h with h | ⟨h1, c, hc, hk, h⟩
  · exact Or.inl h
  · refine Or.inr ⟨h1, c, hc, hk, ?_⟩
    split at h
    · cases h
    · rename_i u hu
      exact ⟨⟨u, c.info.arg⟩, ⟨hu, rfl⟩, of_decide_eq_true h⟩

/-- Executable pairwise condition. -/
def onceB (pl : List Place) : List Elem → Bool
  | [] => true
  | x :: r => (r.all fun y => !decide (x.tag = y.tag) || pl.all fun p => !decide (Named p.1 x.tag p.2) || distinctB p.1 p.2 x y) &&
      onceB pl r

theorem onceB_sound {pl : List Place} : ∀ {l : List Elem}, onceB pl l = true →
    l.Pairwise fun x y => x.tag = y.tag → ∀ p ∈ pl, Named p.1 x.tag p.2 → Distinct p.1 p.2 x y
  | [], _ => .nil
  | x :: r, h => by
    rw [onceB, Bool.and_eq_true, List.all_eq_true] at h
    refine .cons ?_ (onceB_sound h.2)
    intro y hy ht p hp hn
    have := h.1 y hy
    rw [decide_eq_true ht] at this
    simp only [Bool.not_true, Bool.false_or, List.all_eq_true] at this
    have := this p hp
    rw [decide_eq_true hn] at this
    exact distinctB_sound (by simpa using this)

mutual
/-- Executable `InstanceOf`; the entries of lists that are ordered by the user have all prefixes of their children. -/
def instB (d : Device) (pl : List Place) : Elem → Bool
  | .mk _ m a _ ks => decide (NsMapOk m) && a.isEmpty &&
      decide ((∀ p ∈ pl, ¬ (p.2.info.keyword = "list" ∧ p.2.info.Says "ordered-by" "user")) ∨
        ∀ a ∈ ks, ∀ b ∈ ks, ∀ x ∈ a.kids, ∀ z ∈ x.nsmap, z ∈ b.nsmap) &&
      onceB pl ks && instKidsB d pl ks
/-- See `instB`. -/
def instKidsB (d : Device) (pl : List Place) : List Elem → Bool
  | [] => true
  | k :: r => (pl.any fun p => decide (Named p.1 k.tag p.2) && nodeB d p.1 p.2 k) &&
      (pl.all fun p => !decide (Named p.1 k.tag p.2) || instB d (places p.1 p.2.kids) k) && instKidsB d pl r
end

mutual
theorem instB_sound {d : Device} : ∀ (e : Elem) {pl : List Place}, instB d pl e = true → InstanceOf d pl e
  | .mk t m a x ks, pl, h => by
    simp only [instB, Bool.and_eq_true, decide_eq_true_eq, List.isEmpty_iff] at h
    obtain ⟨⟨⟨⟨h1, h2⟩, h3⟩, h4⟩, h5⟩ := h
    have hk := instKidsB_sound ks h5
    refine .mk h1 h2 (fun k hk' => (hk k hk').1) (onceB_sound h4) ?_ fun k hk' => (hk k hk').2
    intro a ha b hb _ p hp _ hl ho _ _ _ q _ x hx z hz
    rcases h3 with h3 | h3
    · exact absurd ⟨hl, ho⟩ (h3 p hp)
    · exact h3 a ha b hb x (List.mem_filter.1 hx).1 _ hz
theorem instKidsB_sound {d : Device} : ∀ (l : List Elem) {pl : List Place}, instKidsB d pl l = true → ∀ k ∈ l,
    (∃ p ∈ pl, Named p.1 k.tag p.2 ∧ NodeOf d p.1 p.2 k) ∧
      ∀ p ∈ pl, Named p.1 k.tag p.2 → InstanceOf d (places p.1 p.2.kids) k
  | [], _, _, _, h => by cases h
  | x :: r, pl, h, k, hk => by
    simp only [instKidsB, Bool.and_eq_true, List.any_eq_true, List.all_eq_true, decide_eq_true_eq] at h
    obtain ⟨⟨⟨p, hp, hn, hb⟩, h2⟩, h3⟩ := h
    have h1 : ∀ p ∈ pl, Named p.1 x.tag p.2 → InstanceOf d (places p.1 p.2.kids) x := fun p' hp' hn' => by
      have := h2 p' hp'
      rw [decide_eq_true hn'] at this
      exact instB_sound x (by simpa using this)
    rcases List.mem_cons.1 hk with rfl | hk
    · exact ⟨⟨p, hp, hn, nodeB_sound hb⟩, h1⟩
    · exact instKidsB_sound r h3 k hk
end

end NcDiff.Compile
