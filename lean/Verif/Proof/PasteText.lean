import Verif.Proof.PasteDiff
/-!
# Reading the commands back, and the steps before the diff
-/

namespace NcDiff.Running

/-! ## The text of the commands -/

theorem parseLine_missing {t : Tables} {f : List Str → List Item} {st : ParseState} {n : Nat} {k x : Str}
    (h : Indented t n k x) (hm : st.missing = false) : (parseLine t f st x).missing = false := by
  unfold parseLine
  simp only [h.ind]
  have hx : n = 0 → (t.missingIndent.any fun r => r x) = false := by
    rintro rfl
    rw [Bool.eq_false_iff]
    intro hx
    rw [List.any_eq_true] at hx
    obtain ⟨r, hr, hx⟩ := hx
    have e : x = k := by rw [h.eq]; rfl
    rw [e, h.good.indented r hr] at hx
    cases hx
  split
  · exact hm
  split
  · exact hm
  split
  · exact hm
  split
  · rfl
  split
  · exact hm
  split
  · split <;> split <;> exact hm
  rename_i hn
  rw [hx (by omega)]
  simp [hm]

theorem fold_missing {t : Tables} {f : List Str → List Item} : ∀ {ls : List Str},
    (∀ x ∈ ls, ∃ n k, Indented t n k x) → ∀ {st : ParseState}, st.missing = false →
    (ls.foldl (parseLine t f) st).missing = false
  | [], _, _, hm => hm
  | x :: r, h, st, hm => by
    obtain ⟨n, k, hx⟩ := h x (by simp)
    rw [List.foldl_cons]
    exact fold_missing (fun y hy => h y (by simp [hy])) (parseLine_missing hx hm)

theorem parseLine_bang {t : Tables} {f : List Str → List Item} {st : ParseState} (hm : st.missing = false) :
    parseLine t f st ['!'] = st := by
  have h0 : (strip ['!']) = ['!'] := by decide
  have h1 : startsWithMark '!' ['!'] = true := by decide
  unfold parseLine
  simp [h0, h1, hm]

theorem GoodText.join {t : Tables} {l : List Item} (h : GoodText t l) : ∀ x ∈ textLines 0 l,
    (∀ c ∈ x, isBreak c = false) ∧ x ≠ [] := by
  intro x hx
  obtain ⟨k, m, _, h1⟩ := h.lines 0 x hx
  exact ⟨h1.noBreak, h1.rstrip.2⟩

theorem config2list_join {t : Tables} {l : List Item} (h : GoodText t l) :
    config2list t (joinLines (textLines 0 l)) = l := by
  unfold config2list
  rw [splitLines_join h.join]
  exact (fold_good h).1

theorem config2list_both {t : Tables} {a b : List Item} (ha : GoodText t a) (hb : GoodText t b)
    (hna : a ≠ []) (hnb : b ≠ []) :
    config2list t (joinLines (textLines 0 a) ++ "\n!\n".toList ++ joinLines (textLines 0 b)) = a ++ b := by
  have na : textLines 0 a ≠ [] := by obtain ⟨k, x, r, e, _⟩ := ha.head hna 0; rw [e]; simp
  have nb : textLines 0 b ≠ [] := by obtain ⟨k, x, r, e, _⟩ := hb.head hnb 0; rw [e]; simp
  have e : joinLines (textLines 0 a) ++ "\n!\n".toList ++ joinLines (textLines 0 b) =
      joinLines (textLines 0 a ++ ['!'] :: textLines 0 b) := by
    rw [joinLines_append na (by simp)]
    have : ['!'] :: textLines 0 b = [['!']] ++ textLines 0 b := rfl
    rw [this, joinLines_append (by simp) nb]
    simp [joinLines]
  rw [e]
  unfold config2list
  rw [splitLines_join]
  · show parseLines t _ = _
    rw [parseLines_eq, List.foldl_append, List.foldl_cons, parseLine_bang]
    · rw [(fold_good hb).2 _ ?_, (fold_good ha).2 _ rfl]
      · rfl
      · apply fold_missing _ rfl
        intro x hx
        obtain ⟨k, m, _, h1⟩ := ha.lines 0 x hx
        exact ⟨_, _, h1⟩
    · apply fold_missing _ rfl
      intro x hx
      obtain ⟨k, m, _, h1⟩ := ha.lines 0 x hx
      exact ⟨_, _, h1⟩
  · intro x hx
    rcases List.mem_append.1 hx with hx | hx
    · exact ha.join x hx
    · rcases List.mem_cons.1 hx with rfl | hx
      · exact ⟨by decide, by simp⟩
      · exact hb.join x hx

/-- The commands as one text. -/
def cliText (r : Str × Str) : Str :=
  if r.1 ≠ [] then if r.2 ≠ [] then r.2 ++ "\n!\n".toList ++ r.1 else r.1 else r.2

theorem config2list_cli {t : Tables} {on : Str → Prop} {d : List Item} (h : DiffOk t on d) :
    config2list t (cliText (list2cli t d)) = tree t true d ++ tree t false d := by
  obtain ⟨e, hp, hn⟩ := textOk h
  have hne : ∀ {L : List Item}, CmdTree t L → (joinLines (textLines 0 L) = [] ↔ L = []) := by
    intro L hL
    constructor
    · intro h
      by_contra hne
      obtain ⟨k', y, r, he, hy⟩ := hL.good.head hne 0
      rw [he] at h
      cases r with
      | nil => exact hy.rstrip.2 h
      | cons z r => simp [joinLines] at h
    · rintro rfl; rfl
  rw [e]
  unfold cliText
  simp only [ne_eq, hne hp, hne hn]
  by_cases h1 : tree t false d = []
  · rw [if_neg (by simp [h1]), config2list_join hn.good, h1, List.append_nil]
  · rw [if_pos h1]
    by_cases h2 : tree t true d = []
    · rw [if_neg (by simp [h2]), config2list_join hp.good, h2, List.nil_append]
    · rw [if_pos h2, config2list_both hn.good hp.good h2 h1]

theorem typeAll_append {dev : Device} : ∀ (a b : List Item) (st : State),
    typeAll dev (a ++ b) st = typeAll dev b (typeAll dev a st)
  | [], b, st => by rw [typeAll]; rfl
  | x :: a, b, st => by rw [List.cons_append, typeAll, typeAll, typeAll_append a b]

theorem typeItem_nil {dev : Device} (x : Item) (st : State) : typeItem dev x st [] ↔ st [] := by
  obtain ⟨k, s, i⟩ := x
  cases s with
  | none =>
    rw [typeItem, typeSub]
    simp
  | some l => rw [typeItem, typeSub]

theorem typeAll_nil {dev : Device} : ∀ (l : List Item) (st : State), typeAll dev l st [] ↔ st []
  | [], _ => by rw [typeAll]
  | x :: l, st => by rw [typeAll, typeAll_nil l, typeItem_nil]

theorem paste_list {t : Tables} {on : Str → Prop} {l1 l2 d : List Item} (hp : PasteOk t on l1 l2) (hd : compare l1 l2 = some d)
    (hfr : PrefixFree t d) (p : Path) :
    typeAll (deviceOf t on) (config2list t (cliText (list2cli t d))) (hasPath l1) p ↔ hasPath l2 p := by
  obtain ⟨d', hd', hf⟩ := compare_faithful l1 l2
  rw [hd] at hd'
  cases hd'
  rw [config2list_cli (diffOk_of hp hf hfr), typeAll_append]
  cases p with
  | nil => rw [typeAll_nil, typeAll_nil]; simp [hasPath_nil]
  | cons k q => exact paste_agree hp hf hfr k q

/-! ## Moving orderless lines and siblings -/

theorem SubShuffled.mem {t : Tables} {n : Nat} {l r : List Item} (h : SubShuffled t n l r) :
    l.map Item.key = r.map Item.key ∧
    (∀ y ∈ r, ∃ x ∈ l, x.key = y.key ∧ x.info = y.info ∧ (x = y ∨ ∃ s s', x.sub = some s ∧ y.sub = some s' ∧
      Shuffled t (n + 1) s s')) ∧
    (∀ x ∈ l, ∃ y ∈ r, x.key = y.key ∧ x.info = y.info ∧ (x = y ∨ ∃ s s', x.sub = some s ∧ y.sub = some s' ∧
      Shuffled t (n + 1) s s')) := by
  induction r generalizing l with
  | nil => cases h; simp
  | cons b r ih =>
    cases h with
    | same h =>
      obtain ⟨h1, h2, h3⟩ := ih h
      refine ⟨by simp [h1], ?_, ?_⟩
      · intro y hy
        rcases List.mem_cons.1 hy with rfl | hy
        · exact ⟨_, List.mem_cons_self, rfl, rfl, Or.inl rfl⟩
        · obtain ⟨x, hx, hr⟩ := h2 y hy
          exact ⟨x, List.mem_cons_of_mem _ hx, hr⟩
      · intro y hy
        rcases List.mem_cons.1 hy with rfl | hy
        · exact ⟨_, List.mem_cons_self, rfl, rfl, Or.inl rfl⟩
        · obtain ⟨x, hx, hr⟩ := h3 y hy
          exact ⟨x, List.mem_cons_of_mem _ hx, hr⟩
    | sub hs h =>
      obtain ⟨h1, h2, h3⟩ := ih h
      refine ⟨by simp [h1, Item.key], ?_, ?_⟩
      · intro y hy
        rcases List.mem_cons.1 hy with rfl | hy
        · exact ⟨_, List.mem_cons_self, rfl, rfl, Or.inr ⟨_, _, rfl, rfl, hs⟩⟩
        · obtain ⟨x, hx, hr⟩ := h2 y hy
          exact ⟨x, List.mem_cons_of_mem _ hx, hr⟩
      · intro y hy
        rcases List.mem_cons.1 hy with rfl | hy
        · exact ⟨_, List.mem_cons_self, rfl, rfl, Or.inr ⟨_, _, rfl, rfl, hs⟩⟩
        · obtain ⟨x, hx, hr⟩ := h3 y hy
          exact ⟨x, List.mem_cons_of_mem _ hx, hr⟩

theorem Shuffled.mem {t : Tables} {n : Nat} {l r : List Item} (h : Shuffled t n l r) :
    (l.map Item.key).Perm (r.map Item.key) ∧
    (∀ y ∈ r, ∃ x ∈ l, x.key = y.key ∧ x.info = y.info ∧ (x = y ∨ ∃ s s', x.sub = some s ∧ y.sub = some s' ∧
      Shuffled t (n + 1) s s')) ∧
    (∀ x ∈ l, ∃ y ∈ r, x.key = y.key ∧ x.info = y.info ∧ (x = y ∨ ∃ s s', x.sub = some s ∧ y.sub = some s' ∧
      Shuffled t (n + 1) s s')) := by
  obtain ⟨hp, _, hs⟩ := h
  obtain ⟨h1, h2, h3⟩ := hs.mem
  refine ⟨by rw [← h1]; exact (hp.map _).symm, ?_, ?_⟩
  · intro y hy
    obtain ⟨x, hx, hr⟩ := h2 y hy
    exact ⟨x, hp.mem_iff.1 hx, hr⟩
  · intro x hx
    exact h3 x (hp.mem_iff.2 hx)

theorem goodText_of_mem {t : Tables} : ∀ {l : List Item}, (∀ i ∈ l, i.info = .ctx ∧ GoodLine t i.key ∧
    ∀ s, i.sub = some s → s ≠ [] ∧ GoodText t s) → GoodText t l
  | [], _ => .nil
  | .mk k s i :: l, h => by
    obtain ⟨h1, h2, h3⟩ := h _ List.mem_cons_self
    simp only [Item.info, Item.key, Item.sub] at h1 h2 h3
    subst h1
    have ih := goodText_of_mem (l := l) (fun i hi => h i (List.mem_cons_of_mem _ hi))
    cases s with
    | none => exact .leaf h2 ih
    | some s => exact .node h2 (h3 s rfl).1 (h3 s rfl).2 ih

theorem Shuffled.good {t : Tables} {n : Nat} {l r : List Item} (h : Shuffled t n l r) (hg : GoodText t l) : GoodText t r := by
  obtain ⟨_, h2, _⟩ := h.mem
  apply goodText_of_mem
  intro y hy
  obtain ⟨x, hx, hk, hi, hr⟩ := h2 y hy
  obtain ⟨g1, g2, g3⟩ := hg.mem x hx
  refine ⟨hi ▸ g1, hk ▸ g2, ?_⟩
  intro s' hs'
  rcases hr with rfl | ⟨s, s'', e1, e2, hsh⟩
  · exact g3 s' hs'
  · rw [hs'] at e2
    cases e2
    have : sizeOf s < sizeOf l := sub_size hx e1
    refine ⟨?_, hsh.good (g3 s e1).2⟩
    have hp := hsh.mem.1.length_eq
    rintro rfl
    exact (g3 s e1).1 (by simpa using hp)
termination_by sizeOf l

theorem Shuffled.allLines {t : Tables} {P : Str → Prop} {n : Nat} {l r : List Item} (h : Shuffled t n l r)
    (hg : AllLines P l) : AllLines P r := by
  obtain ⟨_, h2, _⟩ := h.mem
  obtain ⟨g1, g2⟩ := hg
  refine ⟨?_, ?_⟩
  · intro y hy
    obtain ⟨x, hx, hk, _⟩ := h2 y hy
    exact hk ▸ g1 x hx
  · intro y hy s' hs'
    obtain ⟨x, hx, _, _, hr⟩ := h2 y hy
    rcases hr with rfl | ⟨s, s'', e1, e2, hsh⟩
    · exact g2 x hx s' hs'
    · rw [hs'] at e2
      cases e2
      have : sizeOf s < sizeOf l := sub_size hx e1
      exact hsh.allLines (g2 x hx s e1)
termination_by sizeOf l

theorem Shuffled.distinct {t : Tables} {n : Nat} {l r : List Item} (h : Shuffled t n l r)
    (hg : Distinct l) : Distinct r := by
  obtain ⟨h1, h2, _⟩ := h.mem
  obtain ⟨g1, g2⟩ := hg
  refine ⟨h1.nodup_iff.1 g1, ?_⟩
  intro y hy s' hs'
  obtain ⟨x, hx, _, _, hr⟩ := h2 y hy
  rcases hr with rfl | ⟨s, s'', e1, e2, hsh⟩
  · exact g2 x hx s' hs'
  · rw [hs'] at e2
    cases e2
    have : sizeOf s < sizeOf l := sub_size hx e1
    exact hsh.distinct (g2 x hx s e1)
termination_by sizeOf l

theorem Shuffled.single {t : Tables} {on : Str → Prop} {n : Nat} {l r : List Item} (h : Shuffled t n l r)
    (hg : Single t on l) : Single t on r := by
  obtain ⟨_, h2, _⟩ := h.mem
  obtain ⟨g1, g2, g3, g4⟩ := hg
  refine ⟨?_, ?_, ?_, ?_⟩
  · intro a ha b hb hh
    obtain ⟨x, hx, e, _⟩ := h2 a ha
    obtain ⟨y, hy, e', _⟩ := h2 b hb
    rw [← e, ← e'] at hh ⊢
    exact g1 x hx y hy hh
  · intro a ha b hb hh
    obtain ⟨x, hx, e, _⟩ := h2 a ha
    obtain ⟨y, hy, e', _⟩ := h2 b hb
    rw [← e, ← e'] at hh ⊢
    exact g2 x hx y hy hh
  · intro a ha hh
    obtain ⟨x, hx, e, _, hr⟩ := h2 a ha
    have := g3 x hx (by rw [e]; exact hh)
    rcases hr with rfl | ⟨s, s', e1, _⟩
    · exact this
    · rw [this] at e1; cases e1
  · intro y hy s' hs'
    obtain ⟨x, hx, _, _, hr⟩ := h2 y hy
    rcases hr with rfl | ⟨s, s'', e1, e2, hsh⟩
    · exact g4 x hx s' hs'
    · rw [hs'] at e2
      cases e2
      have : sizeOf s < sizeOf l := sub_size hx e1
      exact hsh.single (g4 x hx s e1)
termination_by sizeOf l

theorem Shuffled.hasPath {t : Tables} {n : Nat} {l r : List Item} (h : Shuffled t n l r) (p : Path) :
    hasPath l p ↔ hasPath r p := by
  cases p with
  | nil => simp [hasPath_nil]
  | cons k q =>
    obtain ⟨_, h2, h3⟩ := h.mem
    rw [hasPath_cons, hasPath_cons]
    constructor
    · rintro ⟨x, hx, hk, hq⟩
      obtain ⟨y, hy, e, _, hr⟩ := h3 x hx
      refine ⟨y, hy, e ▸ hk, ?_⟩
      rcases hr with rfl | ⟨s, s', e1, e2, hsh⟩
      · exact hq
      · have : sizeOf s < sizeOf l := sub_size hx e1
        have := hsh.hasPath q
        unfold Item.inner at hq ⊢
        rw [e1] at hq
        rw [e2]
        exact hq.imp id this.1
    · rintro ⟨y, hy, hk, hq⟩
      obtain ⟨x, hx, e, _, hr⟩ := h2 y hy
      refine ⟨x, hx, e ▸ hk, ?_⟩
      rcases hr with rfl | ⟨s, s', e1, e2, hsh⟩
      · exact hq
      · have : sizeOf s < sizeOf l := sub_size hx e1
        have := hsh.hasPath q
        unfold Item.inner at hq ⊢
        rw [e2] at hq
        rw [e1]
        exact hq.imp id this.2
termination_by sizeOf l

theorem PasteOk.symm {t : Tables} {on : Str → Prop} {l1 l2 : List Item} (h : PasteOk t on l1 l2) : PasteOk t on l2 l1 :=
  ⟨h.good2, h.good1, h.lines2, h.lines1, h.distinct2, h.distinct1, h.single2, h.single1, h.heads⟩

theorem PasteOk.shuffled {t : Tables} {on : Str → Prop} {n : Nat} {l1 l1' l2 : List Item} (h : PasteOk t on l1 l2)
    (hs : Shuffled t n l1 l1') : PasteOk t on l1' l2 :=
  ⟨hs.good h.good1, h.good2, hs.allLines h.lines1, h.lines2, hs.distinct h.distinct1, h.distinct2,
    hs.single h.single1, h.single2, h.heads⟩

/-! ## Sibling commands -/

theorem takeSiblings_id {rxs : List (Str → Bool)} {x : Item} (h : ∀ r ∈ rxs, r x.key = false) :
    takeSiblings rxs x = (x, []) := by
  induction rxs with
  | nil => rfl
  | cons r rxs ih =>
    obtain ⟨k, s, i⟩ := x
    cases s with
    | none => rfl
    | some l =>
      have hr : r k = false := h r (by simp)
      unfold takeSiblings
      simp only [hr, Bool.false_eq_true, if_false]
      exact ih (fun r' hr' => h r' (by simp [hr']))

theorem siblingFuel_id {t : Tables} : ∀ (n : Nat) {l : List Item},
    AllLines (fun k => ∀ r ∈ t.sibling, r k = false) l → siblingFuel t n l = l
  | 0, _, _ => rfl
  | n + 1, l, h => by
    have loop : ∀ (m : Nat) (l : List Item), AllLines (fun k => ∀ r ∈ t.sibling, r k = false) l →
        siblingLoop t (siblingFuel t n) m l = l := by
      intro m
      induction m with
      | zero => intro l _; rfl
      | succ m ih =>
        intro l hl
        cases l with
        | nil => rfl
        | cons x r =>
          obtain ⟨h1, h2⟩ := hl
          rw [siblingLoop, takeSiblings_id (h1 x (by simp))]
          simp only [List.nil_append]
          rw [ih r ⟨fun i hi => h1 i (by simp [hi]), fun i hi => h2 i (by simp [hi])⟩]
          obtain ⟨k, s, i⟩ := x
          cases s with
          | none => rfl
          | some s => simp only; rw [siblingFuel_id n (h2 _ List.mem_cons_self s rfl)]
    rw [siblingFuel]
    exact loop _ l h

theorem DeviceLine.alone {t : Tables} {on : Str → Prop} {k : Str} (h : DeviceLine t on k) : ∀ r ∈ t.sibling, r k = false := by
  cases h with
  | line h => exact h.alone
  | toggle h => exact h.alone

theorem handleSibling_id {t : Tables} {on : Str → Prop} {l : List Item} (h : AllLines (DeviceLine t on) l) : handleSibling t l = l :=
  siblingFuel_id _ (h.imp (fun _ hk => hk.alone))

end NcDiff.Running
