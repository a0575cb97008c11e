import Verif.Spec.Transition
import Verif.Spec.Check
import Verif.Proof.Settle
import Verif.Props.Sum
import Verif.Props.Delta
/-!
# Executable checks of the hypotheses of the round trip

Only used to show that concrete configs meet the hypotheses of the theorems.
-/

namespace NcDiff

/-- Executable "`P` for every child and its schema node". -/
def kidsB (d : Device) (sc : Scope) (ks : List Elem) (p : Found → Elem → Bool) : Bool :=
  ks.all (fun k => match d.lookup sc k.tag with | .ok f => p f k | .error _ => true)

theorem kidsB_sound {d : Device} {sc : Scope} {ks : List Elem} {p : Found → Elem → Bool}
    (h : kidsB d sc ks p = true) : ∀ k ∈ ks, ∀ f, d.lookup sc k.tag = .ok f → p f k = true := by
  intro k hk f hf
  have := List.all_eq_true.1 h k hk
  rwa [hf] at this

/-- Executable `Writable`. -/
def writableB (d : Device) (sn : SNode) (k : Elem) (m : NsMap) : Bool :=
  (!(sn.info.datatype = .identityref) ||
    match k.text with
    | none => true
    | some t =>
      match IdentityRef.parse d k.nsmap t.toList with
      | .ok (u, _) => m.any (fun p => p.2 = u)
      | .error _ => true) &&
  (!(sn.info.datatype = .instanceId) ||
    match k.text with
    | none => true
    | some t => decide (InstId.Readable t.toList (InstId.read t.toList)) &&
        (InstId.used d k.nsmap none (InstId.read t.toList)).all
          (fun u => m.any (fun p => p.1.isSome && p.2 = u)))

theorem writableB_sound {d : Device} {sn : SNode} {k : Elem} {m : NsMap} (h : writableB d sn k m = true) :
    Writable d sn k m := by
  unfold writableB at h
  rw [Bool.and_eq_true] at h
  obtain ⟨h, h'⟩ := h
  refine ⟨?_, ?_⟩
  · intro hd t ht u i hp
    simp only [hd, decide_true, Bool.not_true, Bool.false_or, ht, hp, List.any_eq_true, decide_eq_true_eq] at h
    obtain ⟨⟨p, v⟩, hm, rfl⟩ := h
    exact ⟨p, hm⟩
  · intro hd t ht ts hr u hu
    simp only [hd, decide_true, Bool.not_true, Bool.false_or, ht, Bool.and_eq_true, decide_eq_true_eq,
      List.all_eq_true, List.any_eq_true] at h'
    obtain ⟨hr', h'⟩ := h'
    obtain rfl := InstId.render_inj hr.2.2.1 hr'.2.2.1 (hr.1.symm.trans hr'.1)
    obtain ⟨⟨p, v⟩, hm, hp, rfl⟩ := h' u hu
    obtain ⟨p, rfl⟩ := Option.isSome_iff_exists.1 hp
    exact ⟨p, hm⟩

/-- Executable `ConfLevel` for one child. -/
def confKidB (d : Device) (e : Elem) (f : Found) (k : Elem) : Bool :=
  (!(f.node.ntype = .list) || (f.node.keys.all (fun q =>
    match d.lookup (.node f.node) q with
    | .ok g => g.node.ntype = .leaf && (k.childrenWith q).all (keyOkB d g.node) && g.node.info.isKey
    | .error _ => false) && decide f.node.keys.Nodup)) &&
  (!f.node.info.isKey || (f.node.ntype = .leaf && keyOkB d f.node k)) &&
  (!(f.node.ntype = .leaf ∨ f.node.ntype = .leafList) || leafValueB f.node k) &&
  (!(f.node.ntype = .container) || k.text = none) &&
  (!(f.node.ntype = .leafList) || writableB d f.node k k.nsmap) &&
  (!(f.node.userOrdered ∧ f.node.ntype = .leafList) || (decide f.node.info.datatype.plain && k.text ≠ none)) &&
  (!(f.node.userOrdered ∧ f.node.ntype = .list) || f.node.keys.all (fun q => (k.childrenWith q).all (fun c =>
    (match c.text with | some t => '\'' ∉ t.toList | none => false) && q.ns ≠ "" &&
      e.kids.all (fun b => !(k.tag = b.tag) || c.nsmap.all (fun p => !(p.2 = q.ns) || p ∈ b.nsmap)))))

/-- Executable `ConfLevel`. -/
def confLevelB (d : Device) (sc : Scope) (e : Elem) : Bool :=
  decide (NsMapOk e.nsmap) && kidsB d sc e.kids (confKidB d e)

theorem confLevelB_sound {d : Device} (sc : Scope) (e : Elem) (h : confLevelB d sc e = true) : ConfLevel d sc e := by
  unfold confLevelB at h
  rw [Bool.and_eq_true, decide_eq_true_eq] at h
  obtain ⟨h0, h⟩ := h
  have h' := kidsB_sound h
  simp only [confKidB, Bool.and_eq_true, Bool.or_eq_true, Bool.not_eq_true', decide_eq_false_iff_not,
    decide_eq_true_eq, List.all_eq_true] at h'
  have key : ∀ {p q : Prop}, (¬ p ∨ q) → p → q := fun h hp => h.resolve_left (fun hn => hn hp)
  refine ⟨h0, ?_, ?_, ?_, ?_, ?_, ?_, ?_, ?_, ?_⟩
  · intro k hk f hf hn q hq
    obtain ⟨⟨⟨⟨⟨⟨a, _⟩, _⟩, _⟩, _⟩, _⟩, _⟩ := h' k hk f hf
    have := (key a hn).1 q hq
    cases hg : d.lookup (.node f.node) q with
    | error x => simp [hg] at this
    | ok g =>
      simp only [hg, Bool.and_eq_true, decide_eq_true_eq, List.all_eq_true] at this
      exact ⟨g, rfl, this.1.1, fun c hc => keyOkB_sound (this.1.2 c hc), this.2⟩
  · intro k hk f hf hn
    obtain ⟨⟨⟨⟨⟨⟨a, _⟩, _⟩, _⟩, _⟩, _⟩, _⟩ := h' k hk f hf
    exact (key a hn).2
  · intro k hk f hf hn
    obtain ⟨⟨⟨⟨⟨⟨_, a⟩, _⟩, _⟩, _⟩, _⟩, _⟩ := h' k hk f hf
    simp only [hn, Bool.not_true, Bool.false_eq_true, not_false_eq_true, false_or, Bool.true_eq_false] at a
    exact ⟨a.1, keyOkB_sound a.2⟩
  · intro k hk f hf hn
    obtain ⟨⟨⟨⟨⟨⟨_, _⟩, a⟩, _⟩, _⟩, _⟩, _⟩ := h' k hk f hf
    exact leafValueB_sound (key a hn)
  · intro k hk f hf hn
    obtain ⟨⟨⟨⟨⟨⟨_, _⟩, _⟩, a⟩, _⟩, _⟩, _⟩ := h' k hk f hf
    exact key a hn
  · intro k hk f hf hn
    obtain ⟨⟨⟨⟨⟨⟨_, _⟩, _⟩, _⟩, a⟩, _⟩, _⟩ := h' k hk f hf
    exact writableB_sound (key a hn)
  · intro k hk f hf hu hn
    obtain ⟨⟨⟨⟨⟨⟨_, _⟩, _⟩, _⟩, _⟩, a⟩, _⟩ := h' k hk f hf
    exact key a ⟨hu, hn⟩
  · intro k hk f hf hu hn q hq c hc
    obtain ⟨⟨⟨⟨⟨⟨_, _⟩, _⟩, _⟩, _⟩, _⟩, a⟩ := h' k hk f hf
    have := (key a ⟨hu, hn⟩ q hq c hc).1.1
    cases ht : c.text with
    | none => simp [ht] at this
    | some t => exact ⟨t, rfl, by simpa [ht] using this⟩
  · intro a ha b hb hab f hf hu hn q hq c hc
    obtain ⟨⟨⟨⟨⟨⟨_, _⟩, _⟩, _⟩, _⟩, _⟩, x⟩ := h' a ha f hf
    have := key x ⟨hu, hn⟩ q hq c hc
    refine ⟨this.1.2, ?_⟩
    intro p hp
    exact key (key (this.2 b hb) hab (p, q.ns) hp) rfl

/-- Executable `FilledLevel`. -/
def filledLevelB (d : Device) (sc : Scope) (e : Elem) : Bool :=
  kidsB d sc e.kids (fun f k => !f.node.isNP || k.kids ≠ [])

theorem filledLevelB_sound {d : Device} (sc : Scope) (e : Elem) (h : filledLevelB d sc e = true) :
    FilledLevel d sc e := by
  intro k hk f hf hn
  have := kidsB_sound h k hk f hf
  rw [hn] at this
  simpa using this

/-- Executable "no child denotes the instance of `o`". -/
def absentB (d : Device) (sc : Scope) (ks : List Elem) (o : Elem) : Bool := ks.all (fun y => !sameB d sc y o)

theorem absentB_iff {d : Device} {sc : Scope} {ks : List Elem} {o : Elem} :
    absentB d sc ks o = true ↔ Absent d sc ks o := by
  unfold absentB Absent
  rw [List.all_eq_true]
  refine forall_congr' fun y => forall_congr' fun _ => ?_
  rw [← sameB_iff]; simp

/-- Executable `SameCase`. -/
def sameCaseB (f g : Found) : Bool :=
  !f.underCase || !g.underCase || !(f.path.dropLast.dropLast = g.path.dropLast.dropLast) ||
    f.path.dropLast = g.path.dropLast

theorem sameCaseB_sound {f g : Found} (h : sameCaseB f g = true) : SameCase f g := by
  intro h1 h2 h3
  simpa [sameCaseB, h1, h2, h3] using h

instance (n : Nat) (σ : List Nat) : Decidable (Settles n σ) :=
  inferInstanceAs (Decidable (settle n σ = List.range n))

/-- Executable `OrderSettles`. -/
def settlesB (d : Device) (sc : Scope) (t : QName) (S T : List Elem) : Bool :=
  decide (Settles (T.filter (fun k => k.tag = t)).length
    ((S.filter (fun s => s.tag = t ∧ T.any (sameB d sc s))).map
      (fun s => (T.filter (fun k => k.tag = t)).findIdx (sameB d sc s))))

theorem settlesB_ranks {d : Device} {sc : Scope} {t : QName} {S T : List Elem} :
    Ranks d sc t S T ((S.filter (fun s => s.tag = t ∧ T.any (sameB d sc s))).map
      (fun s => (T.filter (fun k => k.tag = t)).findIdx (sameB d sc s))) := by
  refine ⟨S.filter (fun s => s.tag = t ∧ T.any (sameB d sc s)), List.filter_sublist, ?_, ?_⟩
  · intro s hs
    simp only [List.mem_filter, List.any_eq_true, sameB_iff, decide_eq_true_eq]
    exact ⟨fun h => h.2, fun h => ⟨hs, h⟩⟩
  · rw [List.forall₂_map_right_iff, List.forall₂_same]
    intro s hs
    simp only [List.mem_filter, List.any_eq_true, sameB_iff, decide_eq_true_eq] at hs
    obtain ⟨_, h1, k, hk, hsk⟩ := hs
    have hlt : (T.filter (fun k => k.tag = t)).findIdx (sameB d sc s) < (T.filter (fun k => k.tag = t)).length := by
      refine List.findIdx_lt_length_of_exists ⟨k, ?_, (sameB_iff ..).2 hsk⟩
      simp only [List.mem_filter, decide_eq_true_eq]
      exact ⟨hk, by rw [← hsk.1]; exact h1⟩
    exact ⟨_, List.getElem?_eq_getElem hlt, (sameB_iff ..).1 (List.findIdx_getElem (w := hlt))⟩

theorem settlesB_sound {d : Device} {sc : Scope} {t : QName} {S T : List Elem} (h : settlesB d sc t S T = true) :
    OrderSettles d sc t S T := ⟨_, settlesB_ranks, of_decide_eq_true h⟩

theorem settles_absent {d : Device} {sc : Scope} {t : QName} {S T : List Elem} (h : ∀ s ∈ S, s.tag ≠ t) :
    OrderSettles d sc t S T := by
  refine ⟨_, settlesB_ranks, ?_⟩
  have : S.filter (fun s => s.tag = t ∧ T.any (sameB d sc s)) = [] := by
    rw [List.filter_eq_nil_iff]
    intro s hs hc
    simp only [decide_eq_true_eq] at hc
    exact h s hs hc.1
  rw [this]
  exact settles_sorted List.Pairwise.nil (by simp)

/-- Executable condition of `Compat` at one level. -/
def compatHereB (d : Device) (sc : Scope) (S T : List Elem) : Bool :=
  kidsB d sc S (fun f s => kidsB d sc T (fun g k => !absentB d sc T s || !absentB d sc S k || sameCaseB f g)) &&
  kidsB d sc S (fun f x => !(f.node.userOrdered ∧ (f.node.ntype = .leafList ∨ f.node.ntype = .list)) ||
    settlesB d sc x.tag S T) &&
  kidsB d sc T (fun f k => S.all (fun s => !sameB d sc s k || !(f.node.ntype = .leaf) ||
    ((!f.node.info.isKey || s.text = k.text) && parseText d s f.node = parseText d k f.node) || writableB d f.node k s.nsmap))

mutual
/-- Executable `Compat`. -/
def compatB (d : Device) (sc : Scope) : Elem → Elem → Bool
  | .mk _ _ _ _ ks, T => compatHereB d sc ks T.kids && compatKidsB d sc T.kids ks
def compatKidsB (d : Device) (sc : Scope) (T : List Elem) : List Elem → Bool
  | [] => true
  | s :: r =>
    (match d.lookup sc s.tag with
      | .ok f => T.all (fun k => !sameB d sc s k || compatB d (.node f.node) s k)
      | .error _ => true) && compatKidsB d sc T r
end

theorem compatKidsB_mem {d : Device} {sc : Scope} {T : List Elem} : ∀ {ks : List Elem},
    compatKidsB d sc T ks = true → ∀ s ∈ ks, ∀ f, d.lookup sc s.tag = .ok f → ∀ k ∈ T, SameInstance d sc s k →
      compatB d (.node f.node) s k = true
  | [], _, s, hs => by simp at hs
  | x :: r, h, s, hs => by
    rw [compatKidsB, Bool.and_eq_true] at h
    cases hs with
    | head =>
      intro f hf k hk hsm
      have := h.1
      rw [hf] at this
      have := List.all_eq_true.1 this k hk
      rw [(sameB_iff ..).2 hsm] at this
      simpa using this
    | tail _ hs => exact compatKidsB_mem h.2 s hs

theorem compatB_sound {d : Device} : ∀ (S : Elem) {sc : Scope} {T : Elem}, compatB d sc S T = true →
    Compat d sc S T := by
  intro S
  induction S using Elem.ind with
  | h t n a x ks ih =>
    intro sc T h
    rw [compatB, Bool.and_eq_true] at h
    obtain ⟨h1, h2⟩ := h
    simp only [compatHereB, Bool.and_eq_true] at h1
    obtain ⟨⟨hc, ho⟩, hv⟩ := h1
    refine .mk ?_ ?_ ?_ ?_
    · intro s hs k hk ha hb f g hf hg
      have := kidsB_sound (kidsB_sound hc s hs f hf) k hk g hg
      rw [absentB_iff.2 ha, (absentB_iff (ks := ks)).2 hb] at this
      exact sameCaseB_sound (by simpa using this)
    · intro t ht
      by_cases hex : ∃ s ∈ ks, s.tag = t
      · obtain ⟨s, hs, rfl⟩ := hex
        obtain ⟨f, hf, hu1, hu2⟩ := ht
        have := kidsB_sound ho s hs f hf
        simp only [Bool.or_eq_true, Bool.not_eq_true', decide_eq_false_iff_not] at this
        exact settlesB_sound (this.resolve_left (fun hn => hn ⟨hu1, hu2⟩))
      · exact settles_absent (fun s hs he => hex ⟨s, hs, he⟩)
    · intro s hs k hk h f hf hn hne
      have := List.all_eq_true.1 (kidsB_sound hv k hk f hf) s hs
      rw [(sameB_iff ..).2 h] at this
      refine writableB_sound ?_
      rcases hne with hne | hne <;> simpa [hn, hne] using this
    · intro s hs k hk h f hf _
      exact ih s hs (compatKidsB_mem h2 s hs f (by rw [h.1]; exact hf) k hk h)

/-- Executable `DefaultLevel`. -/
def defaultLevelB (d : Device) (sc : Scope) (e : Elem) : Bool :=
  kidsB d sc e.kids (fun f _ => f.node.info.dflt = none || !(f.node.ntype = .leaf ∨ f.node.ntype = .leafList) ||
    decide f.node.info.datatype.plain)

theorem defaultLevelB_sound {d : Device} (sc : Scope) (e : Elem) (h : defaultLevelB d sc e = true) :
    DefaultLevel d sc e := by
  intro k hk f hf hd hn
  have := kidsB_sound h k hk f hf
  simp only [Bool.or_eq_true, decide_eq_true_eq, Bool.not_eq_true', decide_eq_false_iff_not] at this
  rcases this with (this | this) | this
  · exact absurd this hd
  · exact absurd hn this
  · exact this

/-- Executable `PlainConfig`. -/
def plainConfigB (d : Device) (c : Elem) : Bool :=
  validConfigB d c && noAttrsB c && deepB d (confLevelB d) .root c && deepB d (filledLevelB d) .root c

theorem plainConfigB_sound {d : Device} {c : Elem} (h : plainConfigB d c = true) : PlainConfig d c := by
  simp only [plainConfigB, Bool.and_eq_true] at h
  exact ⟨validConfigB_sound h.1.1.1, noAttrsB_sound c h.1.1.2, deepB_sound confLevelB_sound c .root h.1.2,
    deepB_sound filledLevelB_sound c .root h.2⟩

/-- Executable `Transition`. -/
def transitionB (d : Device) (c1 c2 : Elem) : Bool :=
  plainConfigB d c1 && plainConfigB d c2 && c1.tag = ncTag "config" && c2.tag = ncTag "config" &&
    compatB d .root c1 c2 && decide (trimDefaults d .root c2 = .ok c2) && deepB d (defaultLevelB d) .root c2

theorem transitionB_sound {d : Device} {c1 c2 : Elem} (h : transitionB d c1 c2 = true) : Transition d c1 c2 := by
  simp only [transitionB, Bool.and_eq_true, decide_eq_true_eq] at h
  obtain ⟨⟨⟨⟨⟨⟨a, b⟩, c⟩, e⟩, f⟩, g⟩, i⟩ := h
  exact ⟨plainConfigB_sound a, plainConfigB_sound b, c, e, compatB_sound c1 f, g,
    deepB_sound defaultLevelB_sound c2 .root i⟩

end NcDiff
