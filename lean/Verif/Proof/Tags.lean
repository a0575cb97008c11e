import Verif.Spec.Tags
import Verif.Proof.Tree
import Mathlib.Data.List.Nodup
/-!
# Conversion of tags between notations, and prefix tables
-/

namespace NcDiff

/-! ## Splitting -/

theorem splitLastAt_none {sep : Char} : ∀ {s : List Char}, sep ∉ s → splitLastAt sep s = none
  | [], _ => rfl
  | c :: r, h => by
    rw [List.mem_cons, not_or] at h
    unfold splitLastAt
    rw [splitLastAt_none h.2]
    match r, h with
    | [], _ => rfl
    | [x], _ => rfl
    | x :: y :: z, h =>
      have : x ≠ sep := fun e => h.2 (by rw [e]; exact List.mem_cons_self)
      simp only [this, if_false]

theorem splitLastAt_sep {sep : Char} {n : List Char} (hn : n ≠ []) (h : sep ∉ n) :
    ∀ {p : List Char}, p ≠ [] → splitLastAt sep (p ++ sep :: n) = some (p, n)
  | [], hp => absurd rfl hp
  | [c], _ => by
    obtain ⟨x, y, rfl⟩ := List.exists_cons_of_ne_nil hn
    show splitLastAt sep (c :: sep :: x :: y) = _
    have h1 : splitLastAt sep (sep :: x :: y) = none := by
      unfold splitLastAt
      rw [splitLastAt_none h]
      match y, h with
      | [], _ => rfl
      | z :: w, h =>
        have : x ≠ sep := fun e => h (by rw [e]; exact List.mem_cons_self)
        simp only [this, if_false]
    unfold splitLastAt
    rw [h1]
    simp only [if_true]
  | c :: c' :: p, _ => by
    have ih := splitLastAt_sep hn h (p := c' :: p) (by simp)
    show splitLastAt sep (c :: (c' :: p ++ sep :: n)) = _
    unfold splitLastAt
    rw [ih]

/-- The pattern of `COLON` here and in the model of `ref.py` is the same. -/
theorem splitLastAt_colon : ∀ s, splitLastAt ':' s = splitLastColon s
  | [] => rfl
  | c :: r => by
    unfold splitLastAt splitLastColon
    rw [splitLastAt_colon r]
    cases splitLastColon r with
    | some x => rfl
    | none =>
      simp only []
      split
      · rename_i s x y
        split
        · rename_i hs; subst hs; rfl
        · rename_i hs
          split
          · rename_i h; cases h; exact absurd rfl hs
          · rfl
      · rename_i hr
        split
        · rename_i x y; exact absurd rfl (hr ':' x y)
        · rfl

theorem toList_ne_nil {s : String} (h : s ≠ "") : s.toList ≠ [] := by
  intro e
  apply h
  rw [← String.ofList_toList (s := s), e]

theorem split_render (st : Style) {ns : String} {n : List Char} (hns : ns ≠ "")
    (hn : NodeName n) : st.split (st.render ns n) = some (ns.toList, n) := by
  obtain ⟨h1, h2, h3, _⟩ := hn
  cases st with
  | colon => exact splitLastAt_sep h1 h2 (toList_ne_nil hns)
  | brace => exact splitLastAt_sep h1 h3 (toList_ne_nil hns)

theorem split_bare (st : Style) {n : List Char} (hn : NodeName n) : st.split n = none := by
  obtain ⟨h1, h2, _, h4⟩ := hn
  cases st with
  | colon => exact splitLastAt_none h2
  | brace =>
    match n, h4 with
    | [], _ => rfl
    | c :: r, h4 =>
      have : c ≠ '{' := fun e => h4 (by rw [e]; exact List.mem_cons_self)
      unfold Style.split
      split
      · rename_i h; cases h
      · rename_i h; cases h; exact absurd rfl this
      · rfl

/-! ## Namespaces -/

theorem filter_unique {α β : Type} [DecidableEq β] {f : α → β} : ∀ {l : List α} {a : α},
    (l.map f).Nodup → a ∈ l → l.filter (fun x => f x = f a) = [a]
  | [], _, _, h => by cases h
  | x :: l, a, hn, h => by
    rw [List.map_cons, List.nodup_cons] at hn
    rcases List.mem_cons.mp h with rfl | h
    · rw [List.filter_cons_of_pos (by simp), List.filter_eq_nil_iff.mpr]
      intro y hy he
      exact hn.1 (List.mem_map.mpr ⟨y, hy, by simpa using he⟩)
    · have hne : ¬ f x = f a := fun e => hn.1 (List.mem_map.mpr ⟨a, h, e.symm⟩)
      rw [List.filter_cons_of_neg (by simpa using hne)]
      exact filter_unique hn.2 h

theorem special_nodup : ∀ f, f ≠ NsField.name → (specialEntries.map (nsPart f)).Nodup := by
  intro f hf
  cases f with
  | name => exact absurd rfl hf
  | «prefix» => decide +kernel
  | url => decide +kernel

theorem special_nonempty : ∀ s ∈ specialEntries, ∀ f, f ≠ NsField.name → nsPart f s ≠ "" := by
  intro s hs f hf
  have h : ∀ s ∈ specialEntries, s.2.1 ≠ "" ∧ s.2.2 ≠ "" := by decide +kernel
  cases f with
  | name => exact absurd rfl hf
  | «prefix» => exact (h s hs).1
  | url => exact (h s hs).2

theorem special_excl {d : Device} (hu : UniqueNamespaces d) {e x : Entry}
    (he : e ∈ specialEntries) (hx : x ∈ d.namespaces)
    (hno : ∀ x ∈ d.namespaces, x.2.2 ≠ e.2.2) {f} (hf : f ≠ NsField.name) :
    nsPart f x ≠ nsPart f e := by
  intro h
  cases f with
  | name => exact hf rfl
  | «prefix» => exact hno x hx (hu.special x hx e he (.inl h)).2
  | url => exact hno x hx h

theorem convertPart_namable {d : Device} (hu : UniqueNamespaces d) {f g : NsField} {e : Entry}
    (he : Namable d f g e) : convertPart d f g (nsPart f e) = .ok (nsPart g e) := by
  unfold convertPart
  rcases he with he | ⟨he, hf, hg, hno⟩
  · rw [filter_unique (f := nsPart f) (hu.unique f) he]
  · have h1 : d.namespaces.filter (fun x => nsPart f x = nsPart f e) = [] := by
      rw [List.filter_eq_nil_iff]
      intro x hx h
      exact special_excl hu he hx hno hf (by simpa using h)
    rw [h1]
    simp only [ne_eq, hf, hg, not_false_eq_true, and_self, if_true]
    rw [filter_unique (f := nsPart f) (special_nodup f hf) he]

theorem namable_nonempty {d : Device} (hu : UniqueNamespaces d) {f g : NsField} {e : Entry}
    (he : Namable d f g e) : nsPart f e ≠ "" := by
  rcases he with he | ⟨he, hf, _, _⟩
  · exact hu.nonempty e he f
  · exact special_nonempty e he f hf

theorem namable_symm {d : Device} {f g : NsField} {e : Entry} (he : Namable d f g e) :
    Namable d g f e := by
  rcases he with he | ⟨he, hf, hg, hno⟩
  · exact .inl he
  · exact .inr ⟨he, hg, hf, hno⟩

theorem namable_inj {d : Device} (hu : UniqueNamespaces d) {f g : NsField} {a b : Entry}
    (ha : Namable d f g a) (hb : Namable d f g b) (h : nsPart f a = nsPart f b) : a = b := by
  rcases ha with ha | ⟨ha, hf, _, hnoa⟩ <;> rcases hb with hb | ⟨hb, hf', _, hnob⟩
  · exact List.inj_on_of_nodup_map (hu.unique f) ha hb h
  · exact absurd h (special_excl hu hb ha hnob hf')
  · exact absurd h.symm (special_excl hu ha hb hnoa hf)
  · exact List.inj_on_of_nodup_map (special_nodup f hf) ha hb h

theorem namable_possible {d : Device} {f g : NsField} {e : Entry} (he : Namable d f g e) :
    nsPart f e ∈ possiblePart1 d f := by
  rcases he with he | ⟨he, hf, _, _⟩
  · have : nsPart f e ∈ d.namespaces.map (nsPart f) := List.mem_map.mpr ⟨e, he, rfl⟩
    cases f with
    | name => exact this
    | «prefix» => exact List.mem_append_left _ this
    | url => exact List.mem_append_left _ this
  · have : nsPart f e ∈ specialEntries.map (nsPart f) := List.mem_map.mpr ⟨e, he, rfl⟩
    cases f with
    | name => exact absurd rfl hf
    | «prefix» => exact List.mem_append_right _ this
    | url => exact List.mem_append_right _ this

theorem written_eq (n : TagNotation) (dflt : Option Entry) (m : Entry) (name : List Char) :
    written n dflt m name =
      if n.omission ≠ .never ∧ dflt = some m then name
      else n.style.render (nsPart n.field m) name := by
  unfold written
  split
  · rfl
  · cases n.style <;> simp [Style.render]

/-- The conversion gives the text that means the same in the other notation. -/
theorem convertTag_written {d : Device} (hu : UniqueNamespaces d) {src dst : TagNotation}
    {dflt : Option Entry} {m : Entry} {name : List Char}
    (hd : ∀ e, dflt = some e → Namable d src.field dst.field e)
    (hm : Namable d src.field dst.field m) (hn : NodeName name) :
    convertTag d (writtenNs src.field dflt) (written src dflt m name) src dst =
      .ok (nsPart src.field m, written dst dflt m name) := by
  have hne := namable_nonempty hu hm
  have hne' := namable_nonempty hu (namable_symm hm)
  have hdef : writtenNs src.field dflt = nsPart src.field m ↔ dflt = some m := by
    cases dflt with
    | none => simp only [writtenNs, reduceCtorEq, iff_false]; exact fun e => hne e.symm
    | some e =>
      simp only [writtenNs, Option.some.injEq]
      exact ⟨fun h => namable_inj hu (hd e rfl) hm h, fun h => by rw [h]⟩
  have hw : writeTag d (writtenNs src.field dflt) src dst (nsPart src.field m) name =
      .ok (nsPart src.field m, written dst dflt m name) := by
    unfold writeTag
    rw [written_eq]
    by_cases hc : dst.omission ≠ .never ∧ dflt = some m
    · rw [if_pos ⟨hc.1, hdef.mpr hc.2⟩, if_pos hc]
      simp [formatTag]
    · rw [if_neg (fun h => hc ⟨h.1, hdef.mp h.2⟩), if_neg hc,
        convertPart_namable hu hm]
      simp only [bind, Except.bind, pure, Except.pure, formatTag, hne', if_false]
  unfold convertTag
  rw [written_eq]
  by_cases hc : src.omission ≠ .never ∧ dflt = some m
  · rw [if_pos hc]
    have hs : splitTag d src name = .ok ("", name) := by
      unfold splitTag; rw [split_bare _ hn]
    rw [hs]
    simp only [bind, Except.bind, hc.1, false_and, if_false, if_true]
    rw [hdef.mpr hc.2]
    rw [hdef.mpr hc.2] at hw
    exact hw
  · rw [if_neg hc]
    have hs : splitTag d src (src.style.render (nsPart src.field m) name) =
        .ok (nsPart src.field m, name) := by
      unfold splitTag
      rw [split_render _ hne hn]
      simp only [String.ofList_toList, namable_possible hm, if_true]
    rw [hs]
    simp only [bind, Except.bind, hne, and_false, if_false]
    exact hw

/-! ## `convert_ns` -/

theorem convertNs_ok {d : Device} {ns r : String} {src dst : NsField}
    (h : convertNs d ns src dst = .ok r) :
    ∃ e ∈ d.namespaces, nsPart src e = ns ∧ nsPart dst e = r := by
  unfold convertNs at h
  split at h
  · rename_i e he
    cases h
    have : e ∈ d.namespaces.filter (fun e => nsPart src e = ns) := by
      rw [he]; exact List.mem_singleton.mpr rfl
    rw [List.mem_filter] at this
    exact ⟨e, this.1, by simpa using this.2, rfl⟩
  · cases h

theorem convertNs_back {d : Device} {ns r : String} {src dst : NsField}
    (hu : (d.namespaces.map (nsPart dst)).Nodup) (h : convertNs d ns src dst = .ok r) :
    convertNs d r dst src = .ok ns := by
  obtain ⟨e, he, h1, h2⟩ := convertNs_ok h
  unfold convertNs
  rw [← h2, filter_unique hu he]
  simp only [h1]

/-! ## Prefix tables -/

/-- Value of a digit string. -/
def digitsVal (acc : Nat) (ds : List Char) : Nat :=
  ds.foldl (fun a c => a * 10 + (c.toNat - 48)) acc

theorem digitChar (n : Nat) (h : n < 10) :
    (Char.ofNat (48 + n)).toNat - 48 = n ∧ (Char.ofNat (48 + n)).isDigit := by
  have : ∀ n < 10, (Char.ofNat (48 + n)).toNat - 48 = n ∧ (Char.ofNat (48 + n)).isDigit := by
    decide +kernel
  exact this n h

theorem digitsVal_cons (a : Nat) (c : Char) (ds : List Char) :
    digitsVal a (c :: ds) = digitsVal (a * 10 + (c.toNat - 48)) ds := by
  unfold digitsVal; rw [List.foldl_cons]

theorem digitsAux_spec : ∀ (fuel n : Nat) (acc : List Char), n < fuel →
    digitsVal 0 (digitsAux fuel n acc) = digitsVal n acc
  | 0, n, acc, h => absurd h (Nat.not_lt_zero _)
  | fuel + 1, n, acc, h => by
    unfold digitsAux
    split
    · rename_i h10
      rw [digitsVal_cons, (digitChar n h10).1, Nat.zero_mul, Nat.zero_add]
    · rename_i h10
      have hlt : n / 10 < fuel := by omega
      rw [digitsAux_spec fuel (n / 10) _ hlt, digitsVal_cons,
        (digitChar (n % 10) (Nat.mod_lt _ (by decide))).1]
      congr 1
      omega

theorem digitsAux_digits : ∀ (fuel n : Nat) (acc : List Char), (∀ c ∈ acc, c.isDigit) →
    ∀ c ∈ digitsAux fuel n acc, c.isDigit
  | 0, n, acc, h => h
  | fuel + 1, n, acc, h => by
    unfold digitsAux
    split
    · rename_i h10
      intro c hc
      rcases List.mem_cons.mp hc with rfl | hc
      · exact (digitChar n h10).2
      · exact h c hc
    · apply digitsAux_digits
      intro c hc
      rcases List.mem_cons.mp hc with rfl | hc
      · exact (digitChar (n % 10) (Nat.mod_lt _ (by decide))).2
      · exact h c hc

/-- The digits of an invented prefix. -/
def genDigits (i : Nat) : List Char :=
  (if i < 10 then ['0'] else []) ++ digitsAux (i + 1) i []

theorem genPrefix_toList (i : Nat) : (genPrefix i).toList = 'n' :: 's' :: genDigits i := by
  unfold genPrefix genDigits
  simp

theorem genDigits_val (i : Nat) : digitsVal 0 (genDigits i) = i := by
  unfold genDigits
  split
  · show digitsVal 0 ('0' :: digitsAux (i + 1) i []) = i
    rw [digitsVal_cons]
    exact digitsAux_spec (i + 1) i [] (Nat.lt_succ_self i)
  · exact digitsAux_spec (i + 1) i [] (Nat.lt_succ_self i)

theorem genDigits_digits (i : Nat) : ∀ c ∈ genDigits i, c.isDigit := by
  unfold genDigits
  intro c hc
  rcases List.mem_append.mp hc with hc | hc
  · split at hc
    · rw [List.mem_singleton] at hc; subst hc; decide
    · cases hc
  · exact digitsAux_digits _ _ [] (fun c hc => by cases hc) c hc

theorem genPrefix_inj {i j : Nat} (h : genPrefix i = genPrefix j) : i = j := by
  have := congrArg String.toList h
  rw [genPrefix_toList, genPrefix_toList] at this
  have hd : genDigits i = genDigits j := by simpa using this
  rw [← genDigits_val i, hd, genDigits_val]

theorem special_not_gen : ∀ s ∈ specialUrls, ∀ i, s.2 ≠ genPrefix i := by
  intro s hs i he
  have h : ∀ s ∈ specialUrls, s.2.toList.take 2 ≠ ['n', 's'] := by decide +kernel
  apply h s hs
  rw [he, genPrefix_toList]; rfl

theorem getPrefix_some {d : Device} {u p : String} (h : getPrefix d u = some p) :
    (u, p) ∈ specialUrls ∨ ∃ e ∈ d.namespaces, e.2.2 = u ∧ e.2.1 = p := by
  unfold getPrefix at h
  split at h
  · rename_i q hq
    cases h
    left
    exact mem_lookup hq
  · right
    cases hf : d.namespaces.find? (fun e => u = nsPart .url e) with
    | none => rw [hf] at h; cases h
    | some e =>
      rw [hf] at h
      cases h
      refine ⟨e, List.mem_of_find?_eq_some hf, ?_, rfl⟩
      have := List.find?_some hf
      simp only [decide_eq_true_eq] at this
      exact this.symm
where
  mem_lookup {k : String} {v : String} : ∀ {l : List (String × String)},
      l.lookup k = some v → (k, v) ∈ l
    | [], h => by cases h
    | (a, b) :: r, h => by
      rw [List.lookup_cons] at h
      split at h
      · rename_i hk
        cases h
        rw [eq_of_beq hk]; exact List.mem_cons_self
      · exact List.mem_cons_of_mem _ (mem_lookup h)

/-- Different URLs never have the same known prefix. -/
theorem getPrefix_inj {d : Device} (hd : DistinctPrefixes d) {u v p : String}
    (hu : getPrefix d u = some p) (hv : getPrefix d v = some p) : u = v := by
  rcases getPrefix_some hu with h1 | ⟨a, ha, rfl, rfl⟩ <;>
    rcases getPrefix_some hv with h2 | ⟨b, hb, rfl, hp⟩
  · have h : ∀ a ∈ specialUrls, ∀ b ∈ specialUrls, a.2 = b.2 → a.1 = b.1 := by decide +kernel
    exact h _ h1 _ h2 rfl
  · exact (hd.special b hb _ h1 hp).symm
  · exact hd.special a ha _ h2 rfl
  · exact hd.modules a ha b hb hp.symm

theorem getPrefix_not_gen {d : Device} (hd : DistinctPrefixes d) {u p : String}
    (hu : getPrefix d u = some p) (i : Nat) : p ≠ genPrefix i := by
  rcases getPrefix_some hu with h | ⟨e, he, _, rfl⟩
  · exact special_not_gen _ h i
  · intro h
    exact hd.invented e he (genDigits i) (genDigits_digits i) (by rw [h, genPrefix_toList])

theorem assign_mem {d : Device} : ∀ {i : Nat} {us : List String} {q : String × String},
    q ∈ assignPrefixes d i us → q.2 ∈ us ∧
      (getPrefix d q.2 = some q.1 ∨
        (getPrefix d q.2 = none ∧ ∃ j, i ≤ j ∧ q.1 = genPrefix j))
  | i, [], q, h => by unfold assignPrefixes at h; cases h
  | i, u :: r, q, h => by
    unfold assignPrefixes at h
    split at h
    · rename_i p hp
      rcases List.mem_cons.mp h with rfl | h
      · exact ⟨List.mem_cons_self, .inl hp⟩
      · obtain ⟨h1, h2⟩ := assign_mem h
        exact ⟨List.mem_cons_of_mem _ h1, h2⟩
    · rename_i hp
      rcases List.mem_cons.mp h with rfl | h
      · exact ⟨List.mem_cons_self, .inr ⟨hp, i, Nat.le_refl _, rfl⟩⟩
      · obtain ⟨h1, h2⟩ := assign_mem h
        refine ⟨List.mem_cons_of_mem _ h1, ?_⟩
        rcases h2 with h2 | ⟨h2, j, hj, h3⟩
        · exact .inl h2
        · exact .inr ⟨h2, j, by omega, h3⟩

theorem assign_urls {d : Device} : ∀ (i : Nat) (us : List String),
    (assignPrefixes d i us).map Prod.snd = us
  | _, [] => rfl
  | i, u :: r => by
    unfold assignPrefixes
    split
    · rw [List.map_cons, assign_urls]
    · rw [List.map_cons, assign_urls]

theorem assign_keys {d : Device} (hd : DistinctPrefixes d) : ∀ {i : Nat} {us : List String},
    us.Nodup → ((assignPrefixes d i us).map Prod.fst).Nodup
  | _, [], _ => List.nodup_nil
  | i, u :: r, h => by
    rw [List.nodup_cons] at h
    unfold assignPrefixes
    split
    · rename_i p hp
      rw [List.map_cons, List.nodup_cons]
      refine ⟨fun hm => ?_, assign_keys hd h.2⟩
      obtain ⟨q, hq, he⟩ := List.mem_map.mp hm
      obtain ⟨h1, h2⟩ := assign_mem hq
      rcases h2 with h2 | ⟨_, j, _, h3⟩
      · rw [he] at h2
        exact h.1 (getPrefix_inj hd hp h2 ▸ h1)
      · exact getPrefix_not_gen hd hp j (he.symm.trans h3)
    · rename_i hp
      rw [List.map_cons, List.nodup_cons]
      refine ⟨fun hm => ?_, assign_keys hd h.2⟩
      obtain ⟨q, hq, he⟩ := List.mem_map.mp hm
      obtain ⟨h1, h2⟩ := assign_mem hq
      simp only [] at he
      rcases h2 with h2 | ⟨_, j, hj, h3⟩
      · exact getPrefix_not_gen hd h2 i he
      · have := genPrefix_inj (he.symm.trans h3)
        omega

theorem dictSet_new {α β : Type} [DecidableEq α] {k : α} {v : β} : ∀ {l : List (α × β)},
    k ∉ l.map Prod.fst → dictSet k v l = l ++ [(k, v)]
  | [], _ => rfl
  | p :: l, h => by
    rw [List.map_cons, List.mem_cons, not_or] at h
    unfold dictSet
    rw [if_neg (fun e => h.1 e.symm), dictSet_new h.2]; rfl

theorem dictOf_nodup {α β : Type} [DecidableEq α] : ∀ {acc ps : List (α × β)},
    ((acc ++ ps).map Prod.fst).Nodup →
    ps.foldl (fun acc p => dictSet p.1 p.2 acc) acc = acc ++ ps
  | acc, [], _ => by simp
  | acc, p :: ps, h => by
    rw [List.foldl_cons]
    have hk : p.1 ∉ acc.map Prod.fst := by
      rw [List.map_append, List.map_cons, List.nodup_append] at h
      intro hm
      exact h.2.2 _ hm _ List.mem_cons_self rfl
    rw [dictSet_new hk, dictOf_nodup (by simpa using h)]
    simp

theorem dictSet_keys {α β : Type} [DecidableEq α] {k : α} {v : β} : ∀ {l : List (α × β)},
    (l.map Prod.fst).Nodup → ((dictSet k v l).map Prod.fst).Nodup ∧
      ∀ x ∈ (dictSet k v l).map Prod.fst, x = k ∨ x ∈ l.map Prod.fst
  | [], _ => ⟨by simp [dictSet], fun x hx => by left; simpa [dictSet] using hx⟩
  | p :: l, h => by
    rw [List.map_cons, List.nodup_cons] at h
    unfold dictSet
    split
    · rename_i hp
      refine ⟨by rw [List.map_cons, List.nodup_cons]; exact hp ▸ h, fun x hx => ?_⟩
      rw [List.map_cons, List.mem_cons] at hx
      rcases hx with hx | hx
      · exact .inl hx
      · right; rw [List.map_cons]; exact List.mem_cons_of_mem _ hx
    · rename_i hp
      obtain ⟨h1, h2⟩ := dictSet_keys (k := k) (v := v) h.2
      refine ⟨?_, fun x hx => ?_⟩
      · rw [List.map_cons, List.nodup_cons]
        refine ⟨fun hm => ?_, h1⟩
        rcases h2 _ hm with e | hm
        · exact hp e
        · exact h.1 hm
      · rw [List.map_cons, List.mem_cons] at hx
        rw [List.map_cons, List.mem_cons]
        rcases hx with hx | hx
        · exact .inr (.inl hx)
        · rcases h2 x hx with e | hm
          · exact .inl e
          · exact .inr (.inr hm)

theorem dictOf_keys {α β : Type} [DecidableEq α] : ∀ {acc ps : List (α × β)},
    (acc.map Prod.fst).Nodup →
    ((ps.foldl (fun acc p => dictSet p.1 p.2 acc) acc).map Prod.fst).Nodup
  | acc, [], h => h
  | acc, p :: ps, h => by
    rw [List.foldl_cons]
    exact dictOf_keys (dictSet_keys h).1

theorem getNs_eq {d : Device} (hd : DistinctPrefixes d) {us : List String} (h : us.Nodup) :
    getNs d us = assignPrefixes d 0 us := by
  unfold getNs dictOf
  rw [dictOf_nodup (by simpa using assign_keys hd h)]
  rfl

theorem mem_nsUrlsList {u : String} : ∀ {ks : List Elem},
    u ∈ nsUrlsList ks ↔ ∃ k ∈ ks, u ∈ k.nsUrls
  | [] => by simp [nsUrlsList]
  | k :: ks => by
    unfold nsUrlsList
    rw [List.mem_append, mem_nsUrlsList]
    simp

theorem mem_nsUrls {u : String} : ∀ e : Elem, u ∈ e.nsUrls ↔ Declared u e := by
  apply Elem.ind
  intro t n a x ks ih
  unfold Elem.nsUrls
  rw [List.mem_append, mem_nsUrlsList]
  constructor
  · rintro (h | ⟨k, hk, h⟩)
    · obtain ⟨p, hp, rfl⟩ := List.mem_map.mp h
      exact .here (e := .mk t n a x ks) (p := p.1) hp
    · exact .inner (e := .mk t n a x ks) hk ((ih k hk).mp h)
  · intro h
    generalize hg : Elem.mk t n a x ks = e at h
    cases h with
    | here h => subst hg; exact .inl (List.mem_map.mpr ⟨_, h, rfl⟩)
    | inner hk h => subst hg; exact .inr ⟨_, hk, (ih _ hk).mpr h⟩

theorem declared_within {u : String} {x e : Elem} (h : NodeOf x e) (hx : Declared u x) :
    Declared u e := by
  induction h with
  | self => exact hx
  | inner hk _ ih => exact .inner hk ih

end NcDiff

namespace NcDiff

theorem lookup_of_nodup {q : String × String} : ∀ {l : List (String × String)},
    (l.map Prod.fst).Nodup → q ∈ l → l.lookup q.1 = some q.2
  | [], _, h => by cases h
  | x :: l, hn, h => by
    rw [List.map_cons, List.nodup_cons] at hn
    rw [List.lookup_cons]
    rcases List.mem_cons.mp h with rfl | h
    · simp
    · have : (q.1 == x.1) = false := by
        simp only [beq_eq_false_iff_ne]
        intro e
        exact hn.1 (e ▸ List.mem_map.mpr ⟨q, h, rfl⟩)
      rw [this]
      exact lookup_of_nodup hn.2 h

end NcDiff
