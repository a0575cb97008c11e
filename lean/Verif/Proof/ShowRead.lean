import Verif.Proof.Show
/-! # Reading the text of a node -/

namespace NcDiff.Show

open ModelDiff Compile

/-! ## Pieces of a text -/

theorem span_append {P : Char → Bool} {n s : List Char} (hn : ∀ c ∈ n, P c = true) (hs : ∀ c ∈ s.head?, P c = false) :
    (n ++ s).takeWhile P = n ∧ (n ++ s).dropWhile P = s := by
  induction n with
  | nil =>
    cases s with
    | nil => exact ⟨rfl, rfl⟩
    | cons c s =>
      have := hs c rfl
      constructor
      · rw [List.nil_append, List.takeWhile_cons, this]; rfl
      · rw [List.nil_append, List.dropWhile_cons, this]; rfl
  | cons c n ih =>
    have h := hn c (.head _)
    obtain ⟨h1, h2⟩ := ih fun c hc => hn c (.tail _ hc)
    constructor
    · rw [List.cons_append, List.takeWhile_cons, if_pos h, h1]
    · rw [List.cons_append, List.dropWhile_cons, if_pos h, h2]

theorem cut_eq {c : Char} {a b : List Char} (h : c ∉ a) : cut c (a ++ c :: b) = (a, b) := by
  obtain ⟨h1, h2⟩ := span_append (P := fun x => decide (x ≠ c)) (n := a) (s := c :: b)
    (fun x hx => by simpa using fun e : x = c => h (e ▸ hx)) (by simp)
  unfold cut
  rw [h1, h2]
  rfl

/-- The key as it is written. -/
def keyText : Option (List Char) → List Char
  | none => []
  | some k => " [".toList ++ k ++ "]".toList

/-- The end of a text, after mark and key. -/
def EndText (s : List Char) : Prop := s = [] ∨ ∃ c r, s = ' ' :: c :: r ∧ c ≠ '['

theorem readKey_eq {k : Option (List Char)} {s : List Char} (hk : ∀ x, k = some x → ']' ∉ x) (hs : EndText s) :
    readKey (keyText k ++ s) = (k, readEnd s) := by
  cases k with
  | none =>
    rw [keyText, List.nil_append]
    rcases hs with rfl | ⟨c, r, rfl, hc⟩
    · rfl
    · unfold readKey
      split
      · rename_i h
        cases h
        exact absurd rfl hc
      · rfl
  | some x =>
    have : keyText (some x) ++ s = ' ' :: '[' :: (x ++ ']' :: s) := by simp [keyText]
    rw [this, readKey, cut_eq (hk x rfl)]

/-- The mark as it is written. -/
def markText : Option Char → List Char
  | none => []
  | some c => [c]

theorem readMark_eq {m : Option Char} {s : List Char} (hm : m = none ∨ m = some '?' ∨ m = some '*')
    (hs : s = [] ∨ ∃ r, s = ' ' :: r) : readMark (markText m ++ s) = (m, readKey s) := by
  rcases hm with rfl | rfl | rfl
  · rcases hs with rfl | ⟨r, rfl⟩ <;> rfl
  · rfl
  · rfl

theorem blank_start {k : Option (List Char)} {s : List Char} (hs : EndText s) :
    keyText k ++ s = [] ∨ ∃ r, keyText k ++ s = ' ' :: r := by
  cases k with
  | none =>
    rcases hs with rfl | ⟨c, r, rfl, _⟩
    · exact .inl rfl
    · exact .inr ⟨_, rfl⟩
  | some x => exact .inr ⟨_, rfl⟩

theorem after_name {m : Option Char} {s : List Char} (hm : m = none ∨ m = some '?' ∨ m = some '*')
    (hs : s = [] ∨ ∃ r, s = ' ' :: r) : ∀ c ∈ (markText m ++ s).head?, nameChar c = false := by
  rcases hm with rfl | rfl | rfl
  · rcases hs with rfl | ⟨r, rfl⟩
    · intro c hc; cases hc
    · intro c hc; cases hc; decide
  · intro c hc; cases hc; decide
  · intro c hc; cases hc; decide

/-- The name as it is written. -/
def nameText (paren : Bool) (n : List Char) : List Char := if paren then '(' :: n ++ [')'] else n

theorem readParen_eq {sign n : List Char} {paren : Bool} {m : Option Char} {k : Option (List Char)} {s : List Char}
    (hn : ∀ c ∈ n, nameChar c = true) (hne : n ≠ []) (hm : m = none ∨ m = some '?' ∨ m = some '*')
    (hk : ∀ x, k = some x → ']' ∉ x) (hs : EndText s) :
    readParen sign (nameText paren n ++ (markText m ++ (keyText k ++ s))) =
      ⟨sign, paren, n, m, k, (readEnd s).1, (readEnd s).2⟩ := by
  have hb := blank_start (k := k) hs
  have hmk := readMark_eq hm hb
  rw [readKey_eq hk hs] at hmk
  cases paren with
  | true =>
    obtain ⟨h1, h2⟩ := span_append (P := nameChar) (n := n) (s := ')' :: (markText m ++ (keyText k ++ s))) hn
      (by intro c hc; cases hc; decide)
    have : nameText true n ++ (markText m ++ (keyText k ++ s)) = '(' :: (n ++ ')' :: (markText m ++ (keyText k ++ s))) := by
      simp [nameText]
    rw [this, readParen]
    simp only [readName, h1, h2, if_true, List.drop_succ_cons, List.drop_zero, hmk]
  | false =>
    obtain ⟨h1, h2⟩ := span_append (P := nameChar) (n := n) (s := markText m ++ (keyText k ++ s)) hn (after_name hm hb)
    have : nameText false n = n := rfl
    rw [this]
    have hp : readParen sign (n ++ (markText m ++ (keyText k ++ s))) =
        readName sign false (n ++ (markText m ++ (keyText k ++ s))) := by
      cases n with
      | nil => exact absurd rfl hne
      | cons c n =>
        unfold readParen
        split
        · rename_i h
          cases h
          exact absurd (hn '(' (.head _)) (by decide)
        · rfl
    rw [hp]
    simp only [readName, h1, h2, Bool.false_eq_true, if_false, hmk]

theorem read_sign {sign s : List Char} (h1 : ' ' ∉ sign) (h2 : sign.head? ≠ some ':') :
    read (sign ++ ' ' :: s) = readParen sign s := by
  have : read (sign ++ ' ' :: s) = readParen (cut ' ' (sign ++ ' ' :: s)).1 (cut ' ' (sign ++ ' ' :: s)).2 := by
    unfold read
    split
    · rename_i r heq
      exfalso
      cases sign with
      | nil => cases heq
      | cons c sign =>
        rw [List.cons_append, List.cons.injEq] at heq
        exact h2 (by rw [heq.1]; rfl)
    · rfl
  rw [this, cut_eq h1]

theorem trimmed_eq {a v b : List Char} (ha : ∀ c ∈ a, c = ' ') (hb : ∀ c ∈ b, c = ' ') (hv : v ≠ [])
    (h1 : v.head? ≠ some ' ') (h2 : v.getLast? ≠ some ' ') : trimmedText (a ++ (v ++ b)) = some v := by
  obtain ⟨_, e1⟩ := span_append (P := fun c => decide (c = ' ')) (n := a) (s := v ++ b) (by simpa using ha) (by
    intro c hc
    cases v with
    | nil => exact absurd rfl hv
    | cons x v =>
      have : x = c := Option.some.inj hc
      subst this
      simpa using fun e : x = ' ' => h1 (by rw [e]; rfl))
  obtain ⟨_, e2⟩ := span_append (P := fun c => decide (c = ' ')) (n := b.reverse) (s := v.reverse)
    (by intro c hc; simpa using hb c (List.mem_reverse.1 hc)) (by
    intro c hc
    rw [List.head?_reverse] at hc
    simpa using fun e : c = ' ' => h2 (by rw [← e]; exact hc))
  unfold trimmedText
  rw [e1, List.reverse_append, e2, List.reverse_reverse]
  cases v with
  | nil => exact absurd rfl hv
  | cons x v => rfl

theorem trimmed_blank {a : List Char} (ha : ∀ c ∈ a, c = ' ') : trimmedText a = none := by
  obtain ⟨_, e1⟩ := span_append (P := fun c => decide (c = ' ')) (n := a) (s := []) (by simpa using ha) (by simp)
  unfold trimmedText
  rw [List.append_nil] at e1
  rw [e1]
  rfl

/-- The feature as it is written. -/
def featureText : Option (List Char) → List Char
  | none => []
  | some f => " {".toList ++ f ++ "}?".toList

/-- The end with a type and a feature. -/
theorem readEnd_eq {a v : List Char} {f : Option (List Char)} (ha : ∀ c ∈ a, c = ' ') (hv : Solid '{' v)
    (hf : ∀ x, f = some x → '}' ∉ x) : readEnd (a ++ (v ++ featureText f)) = (some v, f) := by
  obtain ⟨h0, h1, h2, _, h3⟩ := hv
  have hab : ∀ c ∈ a, (decide (c ≠ '{')) = true := fun c hc => by rw [ha c hc]; decide
  have hvb : ∀ c ∈ v, (decide (c ≠ '{')) = true := fun c hc => by simpa using fun e : c = '{' => h3 (e ▸ hc)
  cases f with
  | none =>
    obtain ⟨e1, e2⟩ := span_append (P := fun c => decide (c ≠ '{')) (n := a ++ v) (s := [])
      (fun c hc => (List.mem_append.1 hc).elim (hab c) (hvb c)) (by simp)
    rw [List.append_nil] at e1 e2
    rw [featureText, List.append_nil]
    unfold readEnd
    rw [e1, e2]
    have := trimmed_eq ha (b := []) (by simp) h0 h1 h2
    rw [List.append_nil] at this
    rw [this]
  | some x =>
    have : a ++ (v ++ featureText (some x)) = (a ++ (v ++ [' '])) ++ '{' :: (x ++ '}' :: ['?']) := by simp [featureText]
    rw [this]
    obtain ⟨e1, e2⟩ := span_append (P := fun c => decide (c ≠ '{')) (n := a ++ (v ++ [' '])) (s := '{' :: (x ++ '}' :: ['?']))
      (fun c hc => by
        rcases List.mem_append.1 hc with hc | hc
        · exact hab c hc
        · rcases List.mem_append.1 hc with hc | hc
          · exact hvb c hc
          · cases List.mem_singleton.1 hc; decide) (by simp)
    unfold readEnd
    rw [e1, e2, trimmed_eq ha (b := [' ']) (by simp) h0 h1 h2]
    show (some v, some (cut '}' (x ++ '}' :: ['?'])).1) = _
    rw [cut_eq (hf x rfl)]

/-- The end with a feature only. -/
theorem readEnd_feature {f : Option (List Char)} (hf : ∀ x, f = some x → '}' ∉ x) :
    readEnd (featureText f) = (none, f) := by
  cases f with
  | none => rfl
  | some x =>
    have : featureText (some x) = [' '] ++ '{' :: (x ++ '}' :: ['?']) := by simp [featureText]
    rw [this]
    obtain ⟨e1, e2⟩ := span_append (P := fun c => decide (c ≠ '{')) (n := [' ']) (s := '{' :: (x ++ '}' :: ['?']))
      (fun c hc => by cases List.mem_singleton.1 hc; decide) (by simp)
    unfold readEnd
    rw [e1, e2, trimmed_blank (by simp)]
    show (none, some (cut '}' (x ++ '}' :: ['?'])).1) = _
    rw [cut_eq (hf x rfl)]

/-! ## The text of a node -/

theorem sign_facts (e : Elem) : ' ' ∉ (flagsStr e).toList ∧ (flagsStr e).toList.head? ≠ some ':' ∧ '\n' ∉ (flagsStr e).toList := by
  unfold flagsStr
  split <;> decide

theorem flags_sign {e : Elem} (h : strAttr e (.other "type") ≠ some "case") : (flagsStr e).toList = signOf e := by
  unfold flagsStr signOf typ
  simp only [if_neg h]
  split
  · rename_i h1; rw [if_pos (.inl h1)]
  · rename_i h1; rw [if_pos (.inr h1)]
  · rename_i h1; rw [if_neg (by rw [h1]; decide), if_pos h1]
  all_goals
    rename_i h1 h2 h3
    rw [if_neg (by rintro (h | h); exacts [h1 h, h2 h]), if_neg h3]
  · rename_i h4
    rw [if_pos h4]; rfl
  · rename_i h4
    rw [if_neg (by rw [h4]; decide), if_pos h4]
  · rename_i h4
    rw [if_neg (by rw [h4]; decide), if_neg (by rw [h4]; decide), if_pos h4]
  · rename_i h4
    rw [if_neg (by rw [h4]; decide), if_neg (by rw [h4]; decide), if_neg (by rw [h4]; decide), if_pos h4]
  · rename_i h4 h5 h6 h7
    rw [h7, if_neg (by simp), if_neg (by simpa using h4), if_neg (by simpa using h5), if_neg (by simpa using h6)]

/-- What is written before the type. -/
theorem dressed_eq {e : Elem} {t : String} (ht : strAttr e (.other "type") = some t) (name : List Char) :
    dressed e t name = (if t = "case" then [':'] else signOf e ++ [' ']) ++
      (nameText (t = "choice" ∨ t = "case") name ++ (markText (markOf e) ++ keyText (keyOf e))) := by
  unfold dressed markOf keyOf
  simp only [ht, Option.some.injEq]
  by_cases h1 : t = "case"
  · subst h1
    simp [nameText, markText, keyText]
  · have hs := flags_sign (e := e) (by rw [ht]; simpa using h1)
    simp only [if_neg h1, hs]
    by_cases h2 : t = "choice"
    · subst h2
      by_cases hm : mandatory e = true
      · have : strAttr e (.other "mandatory") = some "true" := by simpa [mandatory] using hm
        simp [nameText, markText, keyText, hm, this]
      · have : strAttr e (.other "mandatory") ≠ some "true" := by simpa [mandatory] using hm
        simp [nameText, markText, keyText, hm, this]
    · by_cases h3 : t = "leaf" ∨ t = "anyxml" ∨ t = "anydata"
      · have hc : t ≠ "container" := by rintro rfl; simp at h3
        have hl : t ≠ "list" := by rintro rfl; simp at h3
        have hll : t ≠ "leaf-list" := by rintro rfl; simp at h3
        have hx : t = "leaf" ∨ t = "anyxml" ∨ t = "anydata" ∨ t = "choice" := by
          rcases h3 with h | h | h
          · exact .inl h
          · exact .inr (.inl h)
          · exact .inr (.inr (.inl h))
        by_cases hm : mandatory e = true
        · have : strAttr e (.other "mandatory") = some "true" := by simpa [mandatory] using hm
          simp [nameText, markText, keyText, hm, this, h1, h2, h3, hc, hl, hll]
        · have : strAttr e (.other "mandatory") ≠ some "true" := by simpa [mandatory] using hm
          simp [nameText, markText, keyText, hm, this, h1, h2, h3, hc, hl, hll, hx]
      · have hx : ¬ (t = "leaf" ∨ t = "anyxml" ∨ t = "anydata" ∨ t = "choice") := by
          rintro (h | h | h | h)
          · exact h3 (.inl h)
          · exact h3 (.inr (.inl h))
          · exact h3 (.inr (.inr h))
          · exact h2 h
        by_cases hl : t = "list"
        · subst hl
          cases hk : strAttr e .key <;> simp [nameText, markText, keyText]
        · by_cases hll : t = "leaf-list"
          · subst hll
            simp [nameText, markText, keyText]
          · simp [nameText, markText, keyText, h1, h2, h3, hl, hll, hx]

theorem markOf_cases (e : Elem) : markOf e = none ∨ markOf e = some '?' ∨ markOf e = some '*' := by
  unfold markOf
  dsimp only
  split
  · exact .inr (.inr rfl)
  · split
    · exact .inr (.inl rfl)
    · exact .inl rfl

theorem keyOf_clean {e : Elem} (h : Readable e) : ∀ x, keyOf e = some x → ']' ∉ x ∧ '\n' ∉ x := by
  intro x hx
  unfold keyOf at hx
  split at hx
  · obtain ⟨k, hk, rfl⟩ := Option.map_eq_some_iff.1 hx
    exact h.key k hk
  · cases hx

/-- The text of a node is read as what it was written from. -/
theorem read_dressed {e : Elem} {t : String} (ht : strAttr e (.other "type") = some t) (hr : Readable e) {name s : List Char}
    (hn : ∀ c ∈ name, nameChar c = true) (hne : name ≠ []) (hs : EndText s) :
    read (dressed e t name ++ s) = ⟨signOf e, strAttr e (.other "type") = some "choice" ∨
      strAttr e (.other "type") = some "case", name, markOf e, keyOf e, (readEnd s).1, (readEnd s).2⟩ := by
  have hp := readParen_eq (sign := signOf e) (paren := decide (t = "choice" ∨ t = "case")) hn hne (markOf_cases e)
    (fun x hx => (keyOf_clean hr x hx).1) hs
  have hd : decide (strAttr e (.other "type") = some "choice" ∨ strAttr e (.other "type") = some "case") =
      decide (t = "choice" ∨ t = "case") := by simp [ht]
  rw [dressed_eq ht, hd]
  by_cases h1 : t = "case"
  · have hsg : signOf e = [':'] := by unfold signOf; rw [ht, h1]; rfl
    rw [if_pos h1]
    rw [hsg] at hp ⊢
    rw [← hp]
    simp only [List.append_assoc, List.cons_append, List.nil_append]
    rw [read]
  · rw [if_neg h1]
    have hf := flags_sign (e := e) (by rw [ht]; simpa using h1)
    obtain ⟨f1, f2, _⟩ := sign_facts e
    rw [hf] at f1 f2
    rw [← hp]
    simp only [List.append_assoc, List.cons_append, List.nil_append]
    rw [read_sign f1 f2]

/-! ## Names -/

theorem dictSet_mem {α β : Type} [DecidableEq α] {d : List (α × β)} {k : α} {v : β} {x : α × β} (h : x ∈ dictSet d k v) :
    x ∈ d ∨ x = (k, v) := by
  unfold dictSet at h
  split at h
  · obtain ⟨e, he, rfl⟩ := List.mem_map.1 h
    split
    · exact .inr rfl
    · exact .inl he
  · rcases List.mem_append.1 h with h | h
    · exact .inl h
    · exact .inr (List.mem_singleton.1 h)

theorem dictOf_mem {α β : Type} [DecidableEq α] {l : List (α × β)} {x : α × β} (h : x ∈ dictOf l) : x ∈ l := by
  have : ∀ (l d : List (α × β)), x ∈ l.foldl (fun d e => dictSet d e.1 e.2) d → x ∈ d ∨ x ∈ l := by
    intro l
    induction l with
    | nil => intro d h; exact .inl h
    | cons e l ih =>
      intro d h
      rcases ih _ h with h | h
      · rcases dictSet_mem h with h | rfl
        · exact .inl h
        · exact .inr (.head _)
      · exact .inr (.tail _ h)
  rcases this l [] h with h | h
  · cases h
  · exact h

theorem dictSet_keys {α β : Type} [DecidableEq α] {d : List (α × β)} {k : α} {v : β} (h : (d.map Prod.fst).Nodup) :
    ((dictSet d k v).map Prod.fst).Nodup := by
  unfold dictSet
  split
  · have : (d.map fun e => if e.1 = k then (k, v) else e).map Prod.fst = d.map Prod.fst := by
      rw [List.map_map]
      refine List.map_congr_left fun e _ => ?_
      show (if e.1 = k then (k, v) else e).1 = e.1
      split
      · rename_i h; exact h.symm
      · rfl
    rw [this]
    exact h
  · rename_i hn
    rw [List.map_append, List.nodup_append]
    refine ⟨h, by simp, fun a ha b hb => ?_⟩
    rintro rfl
    obtain ⟨e, he, rfl⟩ := List.mem_map.1 ha
    have : e.1 = k := by simpa using hb
    exact hn (List.any_eq_true.2 ⟨e, he, by simpa using this⟩)

theorem dictOf_keys {α β : Type} [DecidableEq α] (l : List (α × β)) : ((dictOf l).map Prod.fst).Nodup := by
  have : ∀ (l d : List (α × β)), (d.map Prod.fst).Nodup → ((l.foldl (fun d e => dictSet d e.1 e.2) d).map Prod.fst).Nodup := by
    intro l
    induction l with
    | nil => intro d h; exact h
    | cons e l ih => intro d h; exact ih _ (dictSet_keys h)
  exact this l [] (by simp)

theorem lookup_mem {α β : Type} [BEq α] [LawfulBEq α] {k : α} {v : β} {l : List (α × β)} (h : l.lookup k = some v) :
    (k, v) ∈ l := by
  obtain ⟨a, b, rfl, _⟩ := List.lookup_eq_some_iff.1 h
  simp

theorem lookup_of_mem {α β : Type} [BEq α] [LawfulBEq α] {k : α} {v : β} : ∀ {l : List (α × β)}, (l.map Prod.fst).Nodup →
    (k, v) ∈ l → l.lookup k = some v
  | (k', v') :: l, hn, h => by
    rw [List.map_cons, List.nodup_cons] at hn
    rcases List.mem_cons.1 h with e | h'
    · cases e; simp
    · have : k ≠ k' := by rintro rfl; exact hn.1 (List.mem_map.2 ⟨_, h', rfl⟩)
      rw [List.lookup_cons]
      have hb : (k == k') = false := by simpa using this
      rw [hb]
      exact lookup_of_mem hn.2 h'

/-- What `Model.__init__` establishes. -/
structure Made (m : Model) : Prop where
  keys : (m.prefixes.map Prod.fst).Nodup
  own : m.prefixes.lookup m.pfx = some m.url

theorem ofTree_made {t : Elem} {m : Model} (h : ofTree t = .ok m) : Made m := by
  unfold ofTree at h
  obtain ⟨rows, _, h⟩ := bind_ok.1 h
  split at h
  · cases h
  · split at h
    · cases h
    · rename_i hl
      obtain rfl := Except.ok.inj h
      exact ⟨dictOf_keys _, hl⟩

theorem afterPrefix_eq : ∀ {p q n : List Char}, '.' ∉ p → ':' ∉ p → ':' ∉ q → n ≠ [] →
    afterPrefix p (q ++ ':' :: n) = if p = q then some n else none
  | [], [], c :: n, _, _, _, _ => rfl
  | [], [], [], _, _, _, h => absurd rfl h
  | [], x :: q, n, _, _, hq, _ => by
    rw [if_neg (by simp), List.cons_append]
    unfold afterPrefix
    split
    · rename_i h
      rw [List.cons.injEq] at h
      exact absurd (h.1 ▸ List.mem_cons_self) hq
    · rfl
    all_goals rename_i h _; cases h
  | c :: p, [], n, hd, hp, _, _ => by
    have h1 : c ≠ '.' := fun e => hd (e ▸ .head _)
    have h2 : c ≠ ':' := fun e => hp (e ▸ .head _)
    rw [if_neg (by simp), List.nil_append]
    simp [afterPrefix, h1, h2]
  | c :: p, x :: q, n, hd, hp, hq, hn => by
    have h1 : c ≠ '.' := fun e => hd (e ▸ .head _)
    have ih := afterPrefix_eq (p := p) (q := q) (n := n) (fun h => hd (.tail _ h)) (fun h => hp (.tail _ h))
      (fun h => hq (.tail _ h)) hn
    rw [List.cons_append]
    by_cases hc : c = x
    · subst hc
      simp [afterPrefix, h1, ih]
    · simp [afterPrefix, h1, hc]

theorem nameChar_of_ident {n : List Char} (h : Ident n) : ∀ c ∈ n, nameChar c = true := by
  intro c hc
  have := h.2 c hc
  simp only [nameChar, Bool.or_eq_true, decide_eq_true_eq]
  tauto

theorem ident_no {n : List Char} (h : Ident n) {c : Char} (hc : nameChar c = false ∨ c = ':') : c ∉ n := by
  intro hm
  rcases hc with hc | rfl
  · rw [nameChar_of_ident h c hm] at hc; cases hc
  · have := h.2 ':' hm
    revert this; decide

theorem ident_ne {n : List Char} (h : Ident n) : n ≠ [] := by
  obtain ⟨c, r, rfl, _⟩ := h.1
  simp

theorem shown_eq {m : Model} (hm : Made m) (hp : PlainPrefixes m) {q : QName} (hq : Ident q.name.toList) (hns : q.ns ≠ "")
    {id : List Char} (h : urlToPrefix m q = .ok id) : NameShown m q (removeModelPrefix m id) := by
  unfold urlToPrefix at h
  rw [if_neg hns] at h
  split at h
  · cases h
  · rename_i p hl
    obtain rfl := Except.ok.inj h
    have h1 := dictOf_mem (lookup_mem hl)
    obtain ⟨e, he, h2⟩ := List.mem_map.1 h1
    have hmem : (p, some q.ns) ∈ m.prefixes := by
      cases e; cases h2; exact he
    refine ⟨p, hmem, ?_⟩
    have hown := hp.ident _ _ (lookup_mem hm.own)
    unfold removeModelPrefix
    rw [afterPrefix_eq hp.own (ident_no hown (.inr rfl)) (ident_no (hp.ident _ _ hmem) (.inr rfl)) (ident_ne hq)]
    by_cases he : p = m.pfx
    · exact .inl ⟨he, by rw [if_pos (by rw [he])]; rfl⟩
    · exact .inr ⟨he, by rw [if_neg (fun h => he (String.toList_inj.1 h).symm)]; rfl⟩

theorem shown_chars {m : Model} (hp : PlainPrefixes m) {q : QName} (hq : Ident q.name.toList) {name : List Char}
    (h : NameShown m q name) : (∀ c ∈ name, nameChar c = true) ∧ name ≠ [] := by
  obtain ⟨p, hm, ⟨_, rfl⟩ | ⟨_, rfl⟩⟩ := h
  · exact ⟨nameChar_of_ident hq, ident_ne hq⟩
  · refine ⟨fun c hc => ?_, by simp⟩
    rcases List.mem_append.1 hc with hc | hc
    · exact nameChar_of_ident (hp.ident _ _ hm) c hc
    · rcases List.mem_cons.1 hc with rfl | hc
      · decide
      · exact nameChar_of_ident hq c hc

/-! ## Labels -/

theorem longest_le {p : Printer} : ∀ {l : List Elem} {w : Nat}, longest p l = .ok w → ∀ e ∈ l, ∀ n, p.name e = .ok n →
    n.length ≤ w
  | k :: r, w, h, e, he, n, hn => by
    rw [longest] at h
    obtain ⟨x, hx, h⟩ := bind_ok.1 h
    obtain ⟨y, hy, h⟩ := bind_ok.1 h
    obtain rfl := Except.ok.inj h
    rcases List.mem_cons.1 he with rfl | he
    · rw [hn] at hx; cases hx; exact Nat.le_max_left ..
    · exact Nat.le_trans (longest_le hy e he n hn) (Nat.le_max_right ..)

/-- The column of a list of siblings. -/
def column (p : Printer) (sibs : List Elem) : Nat := (width p sibs).toOption.getD 0

theorem label_shape {p : Printer} {sibs : List Elem} {e : Elem} {l : List Char} (h : Lab p sibs e l) (he : e ∈ sibs) :
    ∃ n, p.name e = .ok n ∧ ((p.tail e = none ∧ l = n) ∨
      ∃ f k, p.tail e = some f ∧ n.length + (k + 3) = column p sibs ∧ l = n ++ f (List.replicate (k + 3) ' ')) := by
  obtain ⟨n, hn, h⟩ := bind_ok.1 h
  refine ⟨n, hn, ?_⟩
  cases ht : p.tail e with
  | none =>
    rw [ht] at h
    exact .inl ⟨rfl, (Except.ok.inj h).symm⟩
  | some f =>
    rw [ht] at h
    obtain ⟨w, hw, h⟩ := bind_ok.1 h
    obtain rfl := Except.ok.inj h
    obtain ⟨x, hx, h'⟩ := bind_ok.1 hw
    have hxw : (x + 3 + 2) / 3 * 3 = w := Except.ok.inj h'
    have hle := longest_le hx e he n hn
    refine .inr ⟨f, w - n.length - 3, rfl, ?_, ?_⟩
    · unfold column
      rw [hw]
      show _ = w
      omega
    · have : w - n.length - 3 + 3 = w - n.length := by omega
      rw [this]

/-- What follows the name. -/
theorem datatypeStr_eq (e : Elem) : datatypeStr e =
    match typeOfValue e, strAttr e (.other "if-feature") with
    | some v, f => some fun sp => sp ++ (v ++ featureText (f.map String.toList))
    | none, some f => some fun _ => featureText (some f.toList)
    | none, none => none := by
  unfold datatypeStr typeOfValue typ
  by_cases h1 : strAttr e (.other "type") = some "anyxml"
  · cases strAttr e (.other "if-feature") <;> simp [h1, featureText]
  · by_cases h2 : strAttr e (.other "type") = some "anydata"
    · cases strAttr e (.other "if-feature") <;> simp [h2, featureText]
    · rw [if_neg h1, if_neg h2]
      cases hd : strAttr e (.other "datatype") with
      | some d => cases strAttr e (.other "if-feature") <;> simp [featureText]
      | none => cases strAttr e (.other "if-feature") <;> simp [featureText]

theorem blanks_end {k : Nat} {r : List Char} : EndText (List.replicate (k + 3) ' ' ++ r) :=
  .inr ⟨' ', List.replicate (k + 1) ' ' ++ r, rfl, by decide⟩

theorem feature_end (f : Option (List Char)) : EndText (featureText f) := by
  cases f with
  | none => exact .inl rfl
  | some f => exact .inr ⟨'{', f ++ "}?".toList, by simp [featureText], by decide⟩

theorem replicate_blank {k : Nat} : ∀ c ∈ List.replicate k ' ', c = ' ' := fun _ h => List.eq_of_mem_replicate h

theorem typeOfValue_solid {e : Elem} (hr : Readable e) : ∀ v, typeOfValue e = some v → Solid '{' v := by
  intro v hv
  unfold typeOfValue at hv
  split at hv
  · cases hv; unfold Solid; decide
  · split at hv
    · cases hv; unfold Solid; decide
    · obtain ⟨d, hd, rfl⟩ := Option.map_eq_some_iff.1 hv
      exact hr.type d hd

theorem split3 {k : Nat} {n v r : List Char} : n ++ (List.replicate (k + 3) ' ' ++ (v ++ r)) =
    (n ++ List.replicate k ' ') ++ "   ".toList ++ v ++ r := by
  rw [List.replicate_add]
  simp [List.append_assoc]

theorem name_line {n : List Char} (h : ∀ c ∈ n, nameChar c = true) : '\n' ∉ n := fun hm => absurd (h _ hm) (by decide)

theorem dressed_line {e : Elem} {t : String} (ht : strAttr e (.other "type") = some t) (hr : Readable e) {name : List Char}
    (hn : ∀ c ∈ name, nameChar c = true) : '\n' ∉ dressed e t name := by
  have h1 := name_line hn
  have h2 : '\n' ∉ markText (markOf e) := by
    rcases markOf_cases e with h | h | h <;> rw [h] <;> decide
  have h3 : '\n' ∉ keyText (keyOf e) := by
    cases hk : keyOf e with
    | none => simp [keyText]
    | some k => simpa [keyText] using (keyOf_clean hr k hk).2
  have h4 : '\n' ∉ (if t = "case" then [':'] else signOf e ++ [' ']) := by
    split
    · decide
    · rename_i hc
      have := (sign_facts e).2.2
      rw [flags_sign (by rw [ht]; simpa using hc)] at this
      simp [this]
  have h5 : '\n' ∉ nameText (t = "choice" ∨ t = "case") name := by
    unfold nameText
    split
    · simp [h1]
    · exact h1
  rw [dressed_eq ht]
  simp only [List.mem_append, not_or]
  simp only [h2, h3, h4, h5, not_false_eq_true, and_self]

theorem feature_line {f : Option (List Char)} (h : ∀ x, f = some x → '\n' ∉ x) : '\n' ∉ featureText f := by
  cases f with
  | none => simp [featureText]
  | some x => simpa [featureText] using h x rfl

theorem blanks_line {k : Nat} : '\n' ∉ List.replicate k ' ' := fun h => absurd (replicate_blank _ h) (by decide)

theorem nameStr_eq {m : Model} (hm : Made m) (hp : PlainPrefixes m) {e : Elem} (hr : Readable e) {n : List Char}
    (h : nameStr m e = .ok n) : ∃ t name, strAttr e (.other "type") = some t ∧ NameShown m e.tag name ∧ n = dressed e t name := by
  obtain ⟨id, hid, h⟩ := bind_ok.1 h
  cases ht : typ e with
  | none => rw [ht] at h; cases h
  | some t =>
    rw [ht] at h
    exact ⟨t, _, ht, shown_eq hm hp hr.ident hr.ns hid, (Except.ok.inj h).symm⟩

/-- The text of a node of a model. -/
theorem label_tells {m : Model} (hm : Made m) (hp : PlainPrefixes m) {sibs : List Elem} {e : Elem} {l : List Char}
    (he : e ∈ sibs) (hr : Readable e) (h : Lab m.printer sibs e l) : Tells m (column m.printer sibs) e l ∧ '\n' ∉ l := by
  obtain ⟨n, hn, hl⟩ := label_shape h he
  obtain ⟨t, name, ht, hs, rfl⟩ := nameStr_eq hm hp hr hn
  obtain ⟨hc, hne⟩ := shown_chars hp hr.ident hs
  have hline := dressed_line ht hr hc
  have hfl : ∀ x, (strAttr e (.other "if-feature")).map String.toList = some x → '}' ∉ x ∧ '\n' ∉ x := by
    intro x hx
    obtain ⟨f, hf, rfl⟩ := Option.map_eq_some_iff.1 hx
    exact hr.feature f hf
  have hd : m.printer.tail e = datatypeStr e := rfl
  rw [hd, datatypeStr_eq] at hl
  cases hv : typeOfValue e with
  | some v =>
    rw [hv] at hl
    have hsol := typeOfValue_solid hr v hv
    rcases hl with ⟨h0, _⟩ | ⟨f, k, h0, hcol, rfl⟩
    · cases h0
    · cases h0
      refine ⟨⟨⟨name, hs, ?_⟩, ?_⟩, ?_⟩
      · rw [read_dressed ht hr hc hne blanks_end, readEnd_eq replicate_blank hsol fun x hx => (hfl x hx).1, hv]
      · intro v' hv'
        rw [hv] at hv'
        cases hv'
        refine ⟨_, _, split3, ?_⟩
        rw [List.length_append, List.length_replicate]
        omega
      · have := feature_line fun x hx => (hfl x hx).2
        simp only [List.mem_append, not_or]
        exact ⟨hline, blanks_line, hsol.2.2.2.1, this⟩
  | none =>
    rw [hv] at hl
    have hno : ∀ v, typeOfValue e = some v → ∃ a b, l = a ++ "   ".toList ++ v ++ b ∧ a.length + 3 = column m.printer sibs := by
      intro v h; rw [hv] at h; cases h
    have key : l = dressed e t name ++ featureText ((strAttr e (.other "if-feature")).map String.toList) := by
      cases hf : strAttr e (.other "if-feature") with
      | none =>
        rw [hf] at hl
        rcases hl with ⟨_, rfl⟩ | ⟨f, k, h0, _⟩
        · simp [featureText]
        · cases h0
      | some x =>
        rw [hf] at hl
        rcases hl with ⟨h0, _⟩ | ⟨f, k, h0, _, rfl⟩
        · cases h0
        · cases h0; rfl
    rw [hv] at hno
    subst key
    refine ⟨⟨⟨name, hs, ?_⟩, by rw [hv]; exact hno⟩, ?_⟩
    · rw [read_dressed ht hr hc hne (feature_end _), readEnd_feature fun x hx => (hfl x hx).1, hv]
    · simp only [List.mem_append, not_or]
      exact ⟨hline, feature_line fun x hx => (hfl x hx).2⟩

/-- The text of a node of a difference. -/
theorem label_tells_diff {m1 m2 : Model} (hm1 : Made m1) (hp1 : PlainPrefixes m1) (hm2 : Made m2) (hp2 : PlainPrefixes m2)
    {sibs : List Elem} {e : Elem} {l : List Char} (he : e ∈ sibs) (hr : Readable e) (h : Lab (diffPrinter m1 m2) sibs e l) :
    TellsDiff m1 m2 (column (diffPrinter m1 m2) sibs) e l ∧ '\n' ∉ l := by
  obtain ⟨n, hn, hl⟩ := label_shape h he
  obtain ⟨t, name, ht, hs, rfl⟩ : ∃ t name, strAttr e (.other "type") = some t ∧
      NameShown (if strAttr e (.other "diff") = some "added" then m2 else m1) e.tag name ∧ n = dressed e t name := by
    change (if strAttr e (.other "diff") = some "added" then nameStr m2 e else nameStr m1 e) = _ at hn
    split at hn
    · rename_i hd
      rw [if_pos hd]
      exact nameStr_eq hm2 hp2 hr hn
    · rename_i hd
      rw [if_neg hd]
      exact nameStr_eq hm1 hp1 hr hn
  obtain ⟨hc, hne⟩ : (∀ c ∈ name, nameChar c = true) ∧ name ≠ [] := by
    split at hs
    · exact shown_chars hp2 hr.ident hs
    · exact shown_chars hp1 hr.ident hs
  have hline := dressed_line ht hr hc
  have hd : (diffPrinter m1 m2).tail e = (strAttr e (.other "diff")).map fun d sp => sp ++ d.toList := rfl
  rw [hd] at hl
  cases hv : strAttr e (.other "diff") with
  | some v =>
    rw [hv] at hl hs
    have hsol := hr.diff v hv
    rcases hl with ⟨h0, _⟩ | ⟨f, k, h0, hcol, rfl⟩
    · cases h0
    · cases h0
      refine ⟨⟨⟨name, by rw [hv]; exact hs, ?_⟩, ?_⟩, ?_⟩
      · rw [read_dressed ht hr hc hne blanks_end]
        have := readEnd_eq (f := none) (a := List.replicate (k + 3) ' ') replicate_blank hsol (by simp)
        rw [featureText, List.append_nil] at this
        rw [this, hv]
        rfl
      · intro v' hv'
        rw [hv] at hv'
        cases hv'
        have := split3 (k := k) (n := dressed e t name) (v := v.toList) (r := [])
        rw [List.append_nil] at this
        refine ⟨_, _, this, ?_⟩
        rw [List.length_append, List.length_replicate]
        omega
      · simp only [List.mem_append, not_or]
        exact ⟨hline, blanks_line, hsol.2.2.2.1⟩
  | none =>
    rw [hv] at hl hs
    rcases hl with ⟨_, rfl⟩ | ⟨f, k, h0, _⟩
    · refine ⟨⟨⟨name, by rw [hv]; exact hs, ?_⟩, fun v h => by rw [hv] at h; cases h⟩, hline⟩
      have := read_dressed ht hr hc hne (s := []) (.inl rfl)
      rw [List.append_nil] at this
      rw [this, hv]
      rfl
    · cases h0

/-! ## Trees -/

mutual
theorem Depicts.mono {R S : Nat → Elem → List Char → Prop} (h : ∀ c e l, R c e l → S c e l) : ∀ {c e t}, Depicts R c e t → Depicts S c e t
  | _, _, _, .mk h1 h2 => .mk (h _ _ _ h1) (Forest.mono h h2)
theorem Forest.mono {R S : Nat → Elem → List Char → Prop} (h : ∀ c e l, R c e l → S c e l) : ∀ {c es ts}, Forest R c es ts → Forest S c es ts
  | _, _, _, .nil => .nil
  | _, _, _, .cons h1 h2 => .cons (Depicts.mono h h1) (Forest.mono h h2)
end

theorem depicts_of_labels {p : Printer} {R : Nat → Elem → List Char → Prop} (Q : Elem → Prop)
    (h : ∀ sibs e l, e ∈ sibs → Q e → Lab p sibs e l → R (column p sibs) e l) : ∀ (e : Elem) {sibs : List Elem} {t : LTree},
    e ∈ sibs → (∀ path x, At e path x → Q x) → Labels p sibs e t → Depicts R (column p sibs) e t := by
  intro e
  induction e using Elem.ind with
  | h tg n a x ks ih =>
    intro sibs t he hq ht
    cases ht with
    | mk hl hts =>
      refine .mk (h _ _ _ he (hq [] _ .here) hl) (c := column p ks) ?_
      have : ∀ {es : List Elem} {ts : List LTree}, (∀ k ∈ es, k ∈ ks) → LabelsAll p ks es ts → Forest R (column p ks) es ts := by
        intro es
        induction es with
        | nil => intro ts _ h; cases h; exact .nil
        | cons k es ihe =>
          intro ts hm h
          cases h with
          | cons h1 h2 =>
            exact .cons (ih k (hm k (.head _)) (hm k (.head _)) (fun path x hx => hq (k.tag :: path) x
              (.down (hm k (.head _)) hx)) h1) (ihe (fun k hk => hm k (.tail _ hk)) h2)
      exact this (fun _ h => h) hts

theorem forest_of_labels {p : Printer} {R : Nat → Elem → List Char → Prop} (Q : Elem → Prop)
    (h : ∀ sibs e l, e ∈ sibs → Q e → Lab p sibs e l → R (column p sibs) e l) {sibs : List Elem} : ∀ {es : List Elem}
    {ts : List LTree}, (∀ e ∈ es, e ∈ sibs) → (∀ e ∈ es, ∀ path x, At e path x → Q x) → LabelsAll p sibs es ts →
    Forest R (column p sibs) es ts
  | _, _, _, _, .nil => .nil
  | e :: es, _, hm, hq, .cons h1 h2 =>
    .cons (depicts_of_labels Q h e (hm e (.head _)) (hq e (.head _)) h1)
      (forest_of_labels Q h (fun e he => hm e (.tail _ he)) (fun e he => hq e (.tail _ he)) h2)

mutual
theorem depicts_lines {R : Nat → Elem → List Char → Prop} (hR : ∀ c e l, R c e l → '\n' ∉ l) : ∀ {c e t}, Depicts R c e t →
    ∀ {pre : List Char} {last : Bool}, '\n' ∉ pre → ∀ x ∈ drawTree pre last t, '\n' ∉ x
  | _, _, _, .mk (l := l) h1 h2, pre, last, hp, x, hx => by
    rw [drawTree_eq] at hx
    rcases List.mem_cons.1 hx with rfl | hx
    · have h3 := hR _ _ _ h1
      simp [hp, h3]
    · refine forest_lines hR h2 ?_ x hx
      cases last <;> simp [rail, hp]
theorem forest_lines {R : Nat → Elem → List Char → Prop} (hR : ∀ c e l, R c e l → '\n' ∉ l) : ∀ {c es ts}, Forest R c es ts →
    ∀ {pre : List Char}, '\n' ∉ pre → ∀ x ∈ draw pre ts, '\n' ∉ x
  | _, _, _, .nil, pre, _, x, hx => by simp [draw] at hx
  | _, _, _, .cons h1 h2, pre, hp, x, hx => by
    rw [draw, List.mem_append] at hx
    rcases hx with hx | hx
    · exact depicts_lines hR h1 hp x hx
    · exact forest_lines hR h2 hp x hx
end

theorem part_lines {R : Nat → Elem → List Char → Prop} (hR : ∀ c e l, R c e l → '\n' ∉ l) {c es ts} (h : Forest R c es ts)
    {title : String} (ht : '\n' ∉ title.toList) : ∀ x ∈ part title ts, '\n' ∉ x := by
  intro x hx
  cases ts with
  | nil => simp [part] at hx
  | cons t ts =>
    rw [part] at hx
    rcases List.mem_cons.1 hx with rfl | hx
    · simp
    · rcases List.mem_cons.1 hx with rfl | hx
      · exact ht
      · exact forest_lines hR h (by decide) x hx

theorem page_lines {R : Nat → Elem → List Char → Prop} (hR : ∀ c e l, R c e l → '\n' ∉ l) {c es1 es2 es3 d r o}
    (h1 : Forest R c es1 d) (h2 : Forest R c es2 r) (h3 : Forest R c es3 o) {n : List Char} (hn : '\n' ∉ n) :
    ∀ x ∈ page n d r o, '\n' ∉ x := by
  intro x hx
  unfold page at hx
  rcases List.mem_cons.1 hx with rfl | hx
  · simp [hn]
  · rw [List.mem_append, List.mem_append] at hx
    rcases hx with (hx | hx) | hx
    · exact forest_lines hR h1 (by decide) x hx
    · exact part_lines hR h2 (by decide) x hx
    · exact part_lines hR h3 (by decide) x hx

end NcDiff.Show
