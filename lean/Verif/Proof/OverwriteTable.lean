import Verif.Proof.Overwrite
import Mathlib.Data.List.TakeWhile
/-!
# The expressions of the code for commands that overwrite one another
-/

namespace NcDiff.Running

/-- Every repetition is followed by a blank. -/
def Stops : List Tok → Prop
  | [] => True
  | .lit _ :: r => Stops r
  | .nonspace :: r => (∃ t r', r = .lit (' ' :: t) :: r') ∧ Stops r
  | .digits :: r => (∃ t r', r = .lit (' ' :: t) :: r') ∧ Stops r
  | .digit :: r => Stops r
  | .spaceOrEnd :: _ => False

theorem matchToks_le : ∀ {ts : List Tok} {s : Str} {n : Nat}, matchToks ts s = some n → n ≤ s.length
  | [], s, n, h => by rw [matchToks] at h; cases h; exact Nat.zero_le _
  | .lit t :: r, s, n, h => by
    rw [matchToks] at h
    split at h
    · rename_i hp
      obtain ⟨k, hk, rfl⟩ := Option.map_eq_some_iff.1 h
      have h1 := matchToks_le hk
      have h2 := (List.isPrefixOf_iff_prefix.1 hp).length_le
      rw [List.length_drop] at h1
      omega
    · cases h
  | .nonspace :: r, s, n, h => by
    rw [matchToks] at h
    split at h
    · cases h
    · obtain ⟨k, hk, rfl⟩ := Option.map_eq_some_iff.1 h
      have h1 := matchToks_le hk
      have h2 := (List.takeWhile_prefix (fun c => !isSpace c) (l := s)).length_le
      rw [List.length_drop] at h1
      omega
  | .digits :: r, s, n, h => by
    rw [matchToks] at h
    split at h
    · cases h
    · obtain ⟨k, hk, rfl⟩ := Option.map_eq_some_iff.1 h
      have h1 := matchToks_le hk
      have h2 := (List.takeWhile_prefix Char.isDigit (l := s)).length_le
      rw [List.length_drop] at h1
      omega
  | .digit :: r, s, n, h => by
    rw [matchToks.eq_def] at h
    cases s with
    | nil => cases h
    | cons c s =>
      simp only at h
      split at h
      · obtain ⟨k, hk, rfl⟩ := Option.map_eq_some_iff.1 h
        have h1 := matchToks_le hk
        simp only [List.length_cons]
        omega
      · cases h
  | .spaceOrEnd :: r, s, n, h => by
    rw [matchToks.eq_def] at h
    simp only at h
    split at h
    · exact matchToks_le h
    · obtain ⟨k, hk, rfl⟩ := Option.map_eq_some_iff.1 h
      have h1 := matchToks_le hk
      simp only [List.length_cons]
      omega
    · cases h

theorem mem_takeWhile {p : Char → Bool} : ∀ {s : Str} {c : Char}, c ∈ s.takeWhile p → p c = true
  | [], _, h => by cases h
  | a :: s, c, h => by
    rw [List.takeWhile_cons] at h
    split at h
    · rcases List.mem_cons.1 h with rfl | h
      · assumption
      · exact mem_takeWhile h
    · cases h

theorem take_span {p : Char → Bool} (s : Str) (n : Nat) : s.take ((s.takeWhile p).length + n) = s.takeWhile p ++ (s.dropWhile p).take n := by
  have h := List.takeWhile_append_dropWhile (p := p) (l := s)
  generalize s.takeWhile p = w at *
  generalize s.dropWhile p = v at *
  rw [← h, List.take_append, List.take_of_length_le (by omega)]
  congr 2
  omega

theorem repeat_stops {p : Char → Bool} (hsp : p ' ' = false) {s : Str} {k : Nat} {t : Str} {r' : List Tok}
    (hk : matchToks (.lit (' ' :: t) :: r') (s.drop (s.takeWhile p).length) = some k) (x : Str) :
    (s.take (k + (s.takeWhile p).length) ++ x).takeWhile p = s.takeWhile p ∧
      (s.take (k + (s.takeWhile p).length) ++ x).drop (s.takeWhile p).length =
        (s.drop (s.takeWhile p).length).take k ++ x := by
  have hs : s.takeWhile p ++ s.drop (s.takeWhile p).length = s := by
    conv_rhs => rw [← List.takeWhile_append_dropWhile (p := p) (l := s)]
    rw [List.append_cancel_left_eq]
    conv_lhs => rw [← List.takeWhile_append_dropWhile (p := p) (l := s)]
    rw [List.drop_append]
    simp
  generalize hw : s.takeWhile p = w at *
  generalize s.drop w.length = rest at *
  have hall : ∀ c ∈ w, p c = true := by
    intro c hc
    rw [← hw] at hc
    exact mem_takeWhile hc
  have htake : s.take (k + w.length) = w ++ rest.take k := by
    rw [← hs, List.take_append, List.take_of_length_le (by omega)]
    congr 2
    omega
  obtain ⟨u, hu⟩ : ∃ u, rest.take k = ' ' :: u := by
    rw [matchToks] at hk
    split at hk
    · rename_i hp
      obtain ⟨k', _, rfl⟩ := Option.map_eq_some_iff.1 hk
      obtain ⟨v, hv⟩ := List.isPrefixOf_iff_prefix.1 hp
      rw [← hv, List.cons_append, show k' + (' ' :: t).length = (k' + t.length) + 1 by simp; omega, List.take_succ_cons]
      exact ⟨_, rfl⟩
    · cases hk
  rw [htake, hu]
  constructor
  · rw [List.append_assoc, List.takeWhile_append_of_pos hall]
    simp [hsp]
  · rw [List.append_assoc, List.drop_append]
    simp

theorem matchToks_stops : ∀ {ts : List Tok} {s : Str} {n : Nat}, Stops ts → matchToks ts s = some n → ∀ x,
    matchToks ts (s.take n ++ x) = some n
  | [], s, n, _, h, x => by rw [matchToks] at h ⊢; exact h
  | .lit t :: r, s, n, hst, h, x => by
    rw [matchToks] at h
    split at h
    · rename_i hp
      obtain ⟨k, hk, rfl⟩ := Option.map_eq_some_iff.1 h
      obtain ⟨v, rfl⟩ := List.isPrefixOf_iff_prefix.1 hp
      rw [List.drop_left] at hk
      have ih := matchToks_stops (show Stops r from hst) hk x
      rw [matchToks]
      have h1 : (t ++ v).take (k + t.length) = t ++ v.take k := by
        rw [List.take_append, List.take_of_length_le (by omega)]
        congr 2
        omega
      rw [h1, List.append_assoc, if_pos (List.isPrefixOf_iff_prefix.2 ⟨_, rfl⟩), List.drop_left, ih]
      rfl
    · cases h
  | .nonspace :: r, s, n, hst, h, x => by
    obtain ⟨⟨t, r', rfl⟩, hst⟩ := hst
    rw [matchToks] at h ⊢
    split at h
    · cases h
    · rename_i hne
      obtain ⟨k, hk, rfl⟩ := Option.map_eq_some_iff.1 h
      obtain ⟨h1, h2⟩ := repeat_stops (p := fun c => !isSpace c) (by decide) hk x
      rw [h1, if_neg hne, h2, matchToks_stops hst hk x]
      rfl
  | .digits :: r, s, n, hst, h, x => by
    obtain ⟨⟨t, r', rfl⟩, hst⟩ := hst
    rw [matchToks] at h ⊢
    split at h
    · cases h
    · rename_i hne
      obtain ⟨k, hk, rfl⟩ := Option.map_eq_some_iff.1 h
      obtain ⟨h1, h2⟩ := repeat_stops (p := Char.isDigit) (by decide) hk x
      rw [h1, if_neg hne, h2, matchToks_stops hst hk x]
      rfl
  | .digit :: r, s, n, hst, h, x => by
    cases s with
    | nil => rw [matchToks.eq_def] at h; cases h
    | cons c s =>
      rw [matchToks.eq_def] at h ⊢
      simp only at h
      split at h
      · rename_i hc
        obtain ⟨k, hk, rfl⟩ := Option.map_eq_some_iff.1 h
        have ih := matchToks_stops (show Stops r from hst) hk x
        simp only [List.take_succ_cons, List.cons_append, hc, if_true, ih, Option.map_some]
      · cases h

/-- A pattern that begins with a text. -/
theorem search_begins {c : Char} {w : Str} {r : List Tok} (hc : isSpace c = false) {s m : Str}
    (h : searchToks (.lit (c :: w) :: r) s = some m) : ∃ n rest, rest = s.dropWhile (· = ' ') ∧
      matchToks (.lit (c :: w) :: r) rest = some n ∧ lstrip m = rest.take n ∧ (c :: w) <+: lstrip m := by
  unfold searchToks at h
  simp only at h
  obtain ⟨n, hn, rfl⟩ := Option.map_eq_some_iff.1 h
  have hd : s.drop (s.takeWhile (· = ' ')).length = s.dropWhile (· = ' ') := by
    conv_lhs => rw [← List.takeWhile_append_dropWhile (p := (· = ' ')) (l := s)]
    rw [List.drop_append]
    simp
  rw [hd] at hn
  refine ⟨n, _, rfl, hn, ?_, ?_⟩ <;> 
  · have ht : s.take ((s.takeWhile (· = ' ')).length + n) = s.takeWhile (· = ' ') ++ (s.dropWhile (· = ' ')).take n := take_span s n
    have hpre : (c :: w) <+: (s.dropWhile (· = ' ')).take n := by
      rw [matchToks] at hn
      split at hn
      · rename_i hp
        obtain ⟨k, _, rfl⟩ := Option.map_eq_some_iff.1 hn
        obtain ⟨v, hv⟩ := List.isPrefixOf_iff_prefix.1 hp
        rw [← hv, List.take_append, List.take_of_length_le (by omega)]
        exact ⟨_, rfl⟩
      · cases hn
    have hl : lstrip (s.take ((s.takeWhile (· = ' ')).length + n)) = (s.dropWhile (· = ' ')).take n := by
      rw [ht]
      unfold lstrip
      rw [List.dropWhile_append_of_pos (by
        intro x hx
        have := mem_takeWhile hx
        rw [decide_eq_true_eq] at this
        rw [this]; decide)]
      obtain ⟨v, hv⟩ := hpre
      rw [← hv, List.cons_append, List.dropWhile_cons_of_neg (by simp [hc])]
    first
    | exact hl
    | (rw [hl]; exact hpre)

theorem strip_begins {m : Str} {u : Str} (h : u <+: lstrip m) (hu : rstrip u = u) (hn : u ≠ []) : u <+: strip m := by
  obtain ⟨v, hv⟩ := h
  unfold strip
  rw [← hv]
  unfold rstrip at hu ⊢
  rw [List.reverse_append]
  by_cases hx : ∀ c ∈ v.reverse, isSpace c = true
  · rw [List.dropWhile_append_of_pos hx, hu]
    exact List.prefix_refl _
  · obtain ⟨a, b, hab⟩ : ∃ a b, v.reverse.dropWhile isSpace = a :: b := by
      cases hd : v.reverse.dropWhile isSpace with
      | nil => exact absurd (List.dropWhile_eq_nil_iff.1 hd) hx
      | cons a b => exact ⟨a, b, rfl⟩
    rw [List.dropWhile_append, if_neg (by rw [hab]; simp), List.reverse_append, List.reverse_reverse]
    exact ⟨_, rfl⟩

/-- What is known of one expression for the commands of a list. -/
structure Entry (l : List Str) (f : Str → Option Str) (u : Str) : Prop where
  begins : ∀ s m, f s = some m → u <+: lstrip m ∧ u <+: strip m
  self : ∀ a ∈ l, ∀ b ∈ l, ∀ m n, f a = some m → f b = some n → lstrip m <+: lstrip n → lstrip m = lstrip n

theorem entry_begins {L u : Str} {r : List Tok} (hL : ∃ c w, L = c :: w ∧ isSpace c = false) (hu : u <+: L) (hr : rstrip u = u)
    (hn : u ≠ []) (s m : Str) (h : searchToks (.lit L :: r) s = some m) : u <+: lstrip m ∧ u <+: strip m := by
  obtain ⟨c, w, rfl, hc⟩ := hL
  obtain ⟨_, _, _, _, _, hp⟩ := search_begins hc h
  exact ⟨hu.trans hp, strip_begins (hu.trans hp) hr hn⟩

theorem entry_stops {l : List Str} {L u : Str} {r : List Tok} (hL : ∃ c w, L = c :: w ∧ isSpace c = false) (hu : u <+: L) (hr : rstrip u = u)
    (hn : u ≠ []) (hs : Stops (.lit L :: r)) : Entry l (searchToks (.lit L :: r)) u := by
  refine ⟨entry_begins hL hu hr hn, fun a _ b _ m n hm hn' hp => ?_⟩
  obtain ⟨c, w, rfl, hc⟩ := hL
  obtain ⟨k, x, _, h1, h2, _⟩ := search_begins hc hm
  obtain ⟨j, y, _, h3, h4, _⟩ := search_begins hc hn'
  obtain ⟨v, hv⟩ := hp
  have e1 := matchToks_stops hs h1 v
  rw [← h2, hv, h4] at e1
  have e2 := matchToks_stops hs h3 []
  rw [List.append_nil] at e2
  have hkj := Option.some.inj (e1.symm.trans e2)
  have l1 := matchToks_le h1
  have l2 := matchToks_le h3
  have := congrArg List.length hv
  rw [h2, h4, List.length_append, List.length_take, List.length_take] at this
  have hv0 : v = [] := List.eq_nil_of_length_eq_zero (by omega)
  rw [← hv, hv0, List.append_nil]

theorem entry_end {l : List Str} {L : Str} (hL : ∃ c w, L = c :: w ∧ isSpace c = false) (hr : rstrip L = L)
    (h0 : ∀ a ∈ l, a.dropWhile (· = ' ') ≠ L) : Entry l (searchToks [.lit L, .spaceOrEnd]) L := by
  refine ⟨entry_begins hL (List.prefix_refl _) hr (by obtain ⟨c, w, rfl, _⟩ := hL; simp), fun a ha b hb m n hm hn' _ => ?_⟩
  obtain ⟨c, w, rfl, hc⟩ := hL
  have key : ∀ a ∈ l, ∀ m, searchToks [.lit (c :: w), .spaceOrEnd] a = some m → lstrip m = c :: w ++ [' '] := by
    intro a ha m hm
    obtain ⟨k, x, hx, h1, h2, _⟩ := search_begins hc hm
    rw [h2]
    rw [matchToks] at h1
    split at h1
    · rename_i hp
      obtain ⟨j, hj, rfl⟩ := Option.map_eq_some_iff.1 h1
      obtain ⟨v, hv⟩ := List.isPrefixOf_iff_prefix.1 hp
      rw [← hv, List.drop_left] at hj
      rw [matchToks.eq_def] at hj
      simp only at hj
      split at hj
      · rw [List.append_nil] at hv
        exact absurd (hx.symm.trans hv.symm) (h0 a ha)
      · rename_i s'
        rw [matchToks] at hj
        cases hj
        rw [← hv, List.take_append, List.take_of_length_le (by omega)]
        simp
      · cases hj
    · cases h1
  rw [key a ha m hm, key b hb n hn']

theorem Entry.apart {l : List Str} {f g : Str → Option Str} {u v : Str} (hf : Entry l f u) (hg : Entry l g v)
    (h : (u.isPrefixOf v || v.isPrefixOf u) = false) :
    (∀ a ∈ l, ∀ b ∈ l, ∀ m n, f a = some m → g b = some n → strip m ≠ strip n) ∧
    ∀ a b m n, f a = some m → g b = some n → ¬ lstrip m <+: lstrip n ∧ ¬ lstrip n <+: lstrip m := by
  have hno : ∀ w, u <+: w → v <+: w → False := by
    intro w h1 h2
    rw [Bool.or_eq_false_iff] at h
    rcases List.prefix_or_prefix_of_prefix h1 h2 with h' | h'
    · rw [List.isPrefixOf_iff_prefix.2 h'] at h; exact absurd h.1 (by decide)
    · rw [List.isPrefixOf_iff_prefix.2 h'] at h; exact absurd h.2 (by decide)
  refine ⟨fun a _ b _ m n hm hn e => ?_, fun a b m n hm hn => ⟨fun e => ?_, fun e => ?_⟩⟩
  · have h1 := (hf.begins a m hm).2
    rw [e] at h1
    exact hno _ h1 (hg.begins b n hn).2
  · exact hno _ ((hf.begins a m hm).1.trans e) (hg.begins b n hn).1
  · exact hno _ (hf.begins a m hm).1 ((hg.begins b n hn).1.trans e)

theorem apart_of_entries {t : Tables} {l us : List Str} (h : List.Forall₂ (Entry l) t.overwritable us)
    (hu : us.Pairwise fun u v => (u.isPrefixOf v || v.isPrefixOf u) = false) : Apart t l := by
  have key : ∀ {fs : List (Str → Option Str)} {us : List Str}, List.Forall₂ (Entry l) fs us →
      us.Pairwise (fun u v => (u.isPrefixOf v || v.isPrefixOf u) = false) →
      (fs.Pairwise fun f g => ∀ a ∈ l, ∀ b ∈ l, ∀ m n, f a = some m → g b = some n → strip m ≠ strip n) ∧
      ∀ f ∈ fs, ∀ g ∈ fs, ∀ a ∈ l, ∀ b ∈ l, ∀ m n, f a = some m → g b = some n → lstrip m <+: lstrip n → lstrip m = lstrip n := by
    intro fs us h
    induction h with
    | nil => exact fun _ => ⟨.nil, fun f hf => by cases hf⟩
    | @cons f u fs us hfu hr ih =>
      intro hp
      obtain ⟨h1, h2⟩ := List.pairwise_cons.1 hp
      obtain ⟨i1, i2⟩ := ih h2
      have hx : ∀ g ∈ fs, ∃ v ∈ us, Entry l g v := by
        clear ih i1 i2 hp h1 h2
        induction hr with
        | nil => intro g hg; cases hg
        | cons hgv _ ih =>
          intro g hg
          rcases List.mem_cons.1 hg with rfl | hg
          · exact ⟨_, by simp, hgv⟩
          · obtain ⟨v, hv, e⟩ := ih g hg
            exact ⟨v, by simp [hv], e⟩
      refine ⟨.cons (fun g hg => ?_) i1, fun f' hf' g' hg' a ha b hb m n hm hn hp => ?_⟩
      · obtain ⟨v, hv, e⟩ := hx g hg
        exact (hfu.apart e (h1 v hv)).1
      · rcases List.mem_cons.1 hf' with rfl | h3 <;> rcases List.mem_cons.1 hg' with rfl | h4
        · exact hfu.self a ha b hb m n hm hn hp
        · obtain ⟨v, hv, e⟩ := hx g' h4
          exact absurd hp ((hfu.apart e (h1 v hv)).2 a b m n hm hn).1
        · obtain ⟨v, hv, e⟩ := hx f' h3
          exact absurd hp ((hfu.apart e (h1 v hv)).2 b a n m hn hm).2
        · exact i2 f' h3 g' h4 a ha b hb m n hm hn hp
  obtain ⟨k1, k2⟩ := key h hu
  refine ⟨k1, fun a ha b hb m hm n hn hp => ?_⟩
  obtain ⟨f, hf, hfa⟩ := List.mem_filterMap.1 hm
  obtain ⟨g, hg, hgb⟩ := List.mem_filterMap.1 hn
  exact k2 f hf g hg a ha b hb m n hfa hgb hp

/-- The expressions of the code are apart, if no command is just `ip address` or `ipv6 address`. -/
theorem cisco_apart {l : List Str} (h : ∀ a ∈ l, a.dropWhile (· = ' ') ≠ "ip address".toList ∧
    a.dropWhile (· = ' ') ≠ "ipv6 address".toList) : Apart ciscoTables l := by
  refine apart_of_entries (us := ["username".toList, "password".toList, "description".toList, "ip address".toList,
    "ipv6 address".toList]) ?_ (by decide +kernel)
  simp only [ciscoTables, litPat]
  refine .cons (entry_stops ⟨_, _, rfl, by decide⟩ (by decide +kernel) (by decide +kernel) (by decide +kernel) ?_)
    (.cons (entry_stops ⟨_, _, rfl, by decide⟩ (by decide +kernel) (by decide +kernel) (by decide +kernel) trivial)
    (.cons (entry_stops ⟨_, _, rfl, by decide⟩ (by decide +kernel) (by decide +kernel) (by decide +kernel) trivial)
    (.cons (entry_end ⟨_, _, rfl, by decide⟩ (by decide +kernel) fun a ha => (h a ha).1)
    (.cons (entry_end ⟨_, _, rfl, by decide⟩ (by decide +kernel) fun a ha => (h a ha).2) .nil))))
  exact ⟨⟨_, _, rfl⟩, ⟨_, _, rfl⟩, trivial⟩

end NcDiff.Running
