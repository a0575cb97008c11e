import Verif.Spec.Transition
import Verif.Proof.Shape
import Verif.Proof.Trim
import Verif.Proof.Fault
import Verif.Proof.LooseTrim
/-!
# Sums and differences of configs
-/

namespace NcDiff

section
variable {ω : Prop} {d : Device} {sc : Scope}

/-! ## Compatibility -/

theorem mapM_ok {α β : Type} {f : α → Except Err β} {P : β → Prop} : ∀ {l : List α},
    (∀ a ∈ l, ∃ b, f a = .ok b ∧ P b) → ∃ r, l.mapM f = .ok r ∧ ∀ b ∈ r, P b
  | [], _ => ⟨[], rfl, by simp⟩
  | a :: l, h => by
    obtain ⟨b, hb, hP⟩ := h a (by simp)
    obtain ⟨r, hr, hPr⟩ := mapM_ok (l := l) (fun x hx => h x (by simp [hx]))
    refine ⟨b :: r, ?_, ?_⟩
    · rw [List.mapM_cons, hb]; simp only [bind, Except.bind]; rw [hr]; rfl
    · intro x hx
      rcases List.mem_cons.1 hx with rfl | hx
      · exact hP
      · exact hPr x hx

theorem configRoots_ok {e : Elem} (h : ∀ k ∈ e.kids, ∃ f, d.lookup .root k.tag = .ok f) :
    ∃ rs, configRoots d e = .ok rs ∧ ∀ r ∈ rs, (d.models.lookup r.2).isSome = true := by
  unfold configRoots
  refine mapM_ok ?_
  intro k hk
  obtain ⟨f, hf⟩ := h k hk
  unfold Device.lookup at hf
  cases h1 : d.roots.lookup k.tag with
  | none => simp [h1] at hf
  | some m =>
    simp only [h1] at hf
    refine ⟨_, rfl, ?_⟩
    cases h2 : d.models.lookup m with
    | none => simp [h2] at hf
    | some t => rfl

theorem compatible_ok {cs : List Elem} (h : ∀ c ∈ cs, ∀ k ∈ c.kids, ∃ f, d.lookup .root k.tag = .ok f) :
    compatible d cs = .ok () := by
  obtain ⟨rs, hrs, hP⟩ := mapM_ok (f := configRoots d)
    (P := fun rs => ∀ r ∈ rs, (d.models.lookup r.2).isSome = true) (l := cs) (fun c hc => configRoots_ok (h c hc))
  unfold compatible
  rw [hrs]
  simp only [bind, Except.bind]
  rw [if_pos]
  rw [List.all_eq_true]
  intro r hr
  obtain ⟨l, hl, hrl⟩ := List.mem_flatten.1 hr
  exact hP l hl r hrl

theorem Valid.known {e : Elem} (h : Valid d sc e) : ∀ k ∈ e.kids, ∃ f, d.lookup sc k.tag = .ok f := by
  intro k hk
  obtain ⟨f, hf, _⟩ := h.shape' k hk
  exact ⟨f, hf⟩

/-! ## Trimming and equality -/

theorem defaultList_perm {sn : SNode} {v : String} {a b : List (Option String)} (h : a.Perm b)
    (hu : sn.userOrdered = false) : defaultList sn v a = defaultList sn v b := by
  unfold defaultList
  simp only [hu, Bool.false_eq_true, if_false]
  rw [Bool.eq_iff_iff]
  simp only [Bool.and_eq_true, List.all_eq_true, decide_eq_true_eq]
  exact ⟨fun g => ⟨fun x hx => g.1 x (h.mem_iff.2 hx), fun x hx => h.mem_iff.1 (g.2 x hx)⟩,
    fun g => ⟨fun x hx => g.1 x (h.mem_iff.1 hx), fun x hx => h.mem_iff.2 (g.2 x hx)⟩⟩

theorem text_of_value {sn : SNode} {a b : Elem} (hp : sn.info.datatype.plain) (hn : sn.ntype ≠ .container)
    (h : parseTextAt d (.node sn) a = parseTextAt d (.node sn) b) : a.text = b.text := by
  have key : ∀ e : Elem, parseTextAt d (.node sn) e = .ok e.text := by
    intro e
    unfold parseTextAt
    cases ht : e.text with
    | none => rfl
    | some t =>
      simp only
      unfold parseText
      simp only [ht]
      cases hd : sn.info.datatype with
      | identityref => rw [hd] at hp; exact hp.elim
      | instanceId => rw [hd] at hp; exact hp.elim
      | none => simp only [hn, if_false]
      | other => simp only [hn, if_false]
  rw [key, key] at h
  exact Except.ok.inj h

theorem filter_map_forall₂ {t : QName} : ∀ {l m : List Elem},
    List.Forall₂ (fun x y => x.tag = y.tag ∧ (x.tag = t → x.text = y.text)) l m →
    (l.filter (fun x => decide (x.tag = t))).map Elem.text = (m.filter (fun x => decide (x.tag = t))).map Elem.text
  | _, _, .nil => rfl
  | _, _, .cons (a := a) (b := b) h r => by
    have ih := filter_map_forall₂ r
    rw [List.filter_cons, List.filter_cons, ← h.1]
    by_cases ht : a.tag = t
    · simp [ht, ih, h.2 ht]
    · simp [ht, ih]

theorem trim_rearranged {a b : Elem} (h : RearrangedW ω d sc a b) (hd : Deep d (DefaultLevel d) sc b)
    (ho : ω ∨ Deep d (NoOrderedDefault d) sc b) (ht : trimDefaults d sc b = .ok b) : trimDefaults d sc a = .ok a := by
  induction h with
  | @mk sc a b l tag value attrs perm tags sub order ih =>
    rw [trim_fixed] at ht ⊢
    have hlen : l.length = b.kids.length := by simpa using congrArg List.length tags
    have hat : ∀ i (hi : i < l.length), l[i].tag = (b.kids[i]'(hlen ▸ hi)).tag := by
      intro i hi
      have := congrArg (fun x => x[i]?) tags
      simpa [hi, hlen ▸ hi] using this
    intro k hk
    obtain ⟨i, hi, rfl⟩ := List.getElem_of_mem (perm.mem_iff.2 hk)
    have hi' : i < b.kids.length := hlen ▸ hi
    obtain ⟨f, hf, hty, hdr⟩ := ht (b.kids[i]) (List.getElem_mem hi')
    have hfk : d.lookup sc l[i].tag = .ok f := by rw [hat i hi]; exact hf
    have hdl := hd.here' _ (List.getElem_mem hi') f hf
    refine ⟨f, hfk, ih i _ _ f (List.getElem?_eq_getElem hi) (List.getElem?_eq_getElem hi') hfk
      (hd.sub' _ (List.getElem_mem hi') f hf) (ho.imp id (fun h => h.sub' _ (List.getElem_mem hi') f hf)) hty, ?_⟩
    have hsub := sub i _ _ f (List.getElem?_eq_getElem hi) (List.getElem?_eq_getElem hi') hfk
    rw [← hdr]
    have hkids : l[i].kids.isEmpty = b.kids[i].kids.isEmpty := by
      cases hsub with
      | mk l' _ _ _ perm' tags' _ _ =>
        have h1 := perm'.length_eq
        have h2 : l'.length = b.kids[i].kids.length := by simpa using congrArg List.length tags'
        rw [Bool.eq_iff_iff, List.isEmpty_iff, List.isEmpty_iff, ← List.length_eq_zero_iff, ← List.length_eq_zero_iff]
        omega
    unfold trimDrops
    cases hn : f.node.ntype <;> simp only
    · cases hdf : f.node.info.dflt with
      | none => rfl
      | some v =>
        have hp := hdl (by rw [hdf]; simp) (Or.inl hn)
        have hv : parseTextAt d (.node f.node) l[i] = parseTextAt d (.node f.node) b.kids[i] := by
          cases hsub; assumption
        simp only
        rw [text_of_value hp (by rw [hn]; simp) hv]
    · cases hdf : f.node.info.dflt with
      | none => rfl
      | some v =>
        have hp := hdl (by rw [hdf]; simp) (Or.inr hn)
        simp only
        have hF : List.Forall₂ (fun x y => x.tag = y.tag ∧ (x.tag = l[i].tag → x.text = y.text)) l b.kids := by
          rw [List.forall₂_iff_get]
          refine ⟨hlen, ?_⟩
          intro j hj hj'
          simp only [List.get_eq_getElem]
          refine ⟨hat j hj, fun htg => ?_⟩
          have hs := sub j _ _ f (List.getElem?_eq_getElem hj) (List.getElem?_eq_getElem hj') (by rw [htg]; exact hfk)
          have hv : parseTextAt d (.node f.node) l[j] = parseTextAt d (.node f.node) b.kids[j] := by
            cases hs; assumption
          exact text_of_value hp (by rw [hn]; simp) hv
        have e1 := filter_map_forall₂ hF
        rw [← hat i hi, ← e1]
        cases hu : f.node.userOrdered with
        | true =>
          rcases ho with ho | ho
          · rw [order ho l[i].tag ⟨f, hfk, hu, Or.inl hn⟩]
          · exact absurd (ho.here' _ (List.getElem_mem hi') f hf hn hu) (by rw [hdf]; simp)
        | false => exact (defaultList_perm ((perm.filter _).map _) hu).symm
    · rw [hkids]
    · rw [hkids]

/-! ## The root -/

/-- `retrieve_config` of a config gives the config back. -/
theorem retrieve_kids {e : Elem} (ht : e.tag = ncTag "config") : retrieveConfig e = emptyConfig.setKids e.kids := by
  have h1 : selectPath ["rpc-reply", "data"] e = [] := by
    rw [selectPath, if_neg (by rw [ht]; decide)]; simp
  have h2 : selectPath ["data"] e = [] := by rw [selectPath, if_neg (by rw [ht]; decide)]
  have h3 : selectPath ["config"] e = e.kids := by rw [selectPath, if_pos ht]
  have h4 : selectPath ["rpc", "edit-config", "config"] e = [] := by
    rw [selectPath, if_neg (by rw [ht]; decide)]; simp
  have h5 : selectPath ["edit-config", "config"] e = [] := by
    rw [selectPath, if_neg (by rw [ht]; decide)]; simp
  unfold retrieveConfig
  rw [h1, h2, h3, h4, h5]; simp

theorem incl_root {a b a' b' : Elem} (h : InclW ω d .root a b) (ta : a'.tag = a.tag) (tb : b'.tag = b.tag)
    (xa : a'.text = a.text) (xb : b'.text = b.text) (aa : a'.attrs = a.attrs) (ab : b'.attrs = b.attrs)
    (ka : a'.kids = a.kids) (kb : b'.kids = b.kids) : InclW ω d .root a' b' := by
  have hv : ∀ {x y : Elem}, x.text = y.text → parseTextAt d .root x = parseTextAt d .root y := by
    intro x y h; unfold parseTextAt; rw [h]
  cases h with
  | mk tag value attrs kids sub order =>
    refine .mk (by rw [ta, tb]; exact tag) (by rw [hv xa, hv xb]; exact value) (by rw [aa, ab]; exact attrs) ?_ ?_ ?_ <;>
      rw [ka, kb]
    · exact kids
    · exact sub
    · exact order

theorem same_root {a b a' : Elem} (h : SameW ω d .root a b) (ta : a'.tag = a.tag) (xa : a'.text = a.text)
    (aa : a'.attrs = a.attrs) (ka : a'.kids = a.kids) : SameW ω d .root a' b :=
  ⟨incl_root h.1 ta rfl xa rfl aa rfl ka rfl, incl_root h.2 rfl ta rfl xa rfl aa rfl ka⟩

/-- The sum as a config. -/
theorem addElem_loose {c x R T : Elem} (hadd : calcAdd d c x = .ok R) (hR : Valid d .root R) (htag : c.tag = ncTag "config")
    (hbare : c.attrs = []) (htext : c.text = none) (hT : Valid d .root T) (hs : SameW ω d .root R T)
    (hd : Deep d (DefaultLevel d) .root T) (ho : ω ∨ Deep d (NoOrderedDefault d) .root T)
    (ht : trimDefaults d .root T = .ok T) :
    ∃ r, configAddElem d c x = .ok r ∧ r = emptyConfig.setKids R.kids ∧ Valid d .root r ∧ SameW ω d .root r T := by
  obtain ⟨e1, e2, e3, e4⟩ := nodeAdd_tag hadd
  have hr := retrieve_kids (e1.trans htag)
  have hval : Valid d .root (emptyConfig.setKids R.kids) := by
    cases hR with
    | mk _ shape unique sub => exact .mk (by simp [emptyConfig, Elem.new]) shape unique sub
  have hsame : SameW ω d .root (emptyConfig.setKids R.kids) T :=
    same_root hs (by rw [e1, htag]; rfl) (by rw [e2, htext]; rfl) (by rw [e3, hbare]; rfl) rfl
  have htr := trim_rearranged (rearrangedW_of_same _ _ _ hval hT hsame) hd ho ht
  refine ⟨_, ?_, rfl, hval, hsame⟩
  unfold configAddElem newConfig
  rw [hadd]
  simp only [bind, Except.bind, pure, Except.pure]
  rw [hr, htr]; rfl

theorem addElem_ok {c x R T : Elem} (hadd : calcAdd d c x = .ok R) (hR : Valid d .root R) (htag : c.tag = ncTag "config")
    (hbare : c.attrs = []) (htext : c.text = none) (hT : Valid d .root T) (hs : SameConfig d .root R T)
    (hd : Deep d (DefaultLevel d) .root T) (ht : trimDefaults d .root T = .ok T) :
    ∃ r, configAddElem d c x = .ok r ∧ r = emptyConfig.setKids R.kids ∧ Valid d .root r ∧ SameConfig d .root r T := by
  obtain ⟨r, h1, h2, h3, h4⟩ := addElem_loose (ω := True) hadd hR htag hbare htext hT hs.loose hd (Or.inl trivial) ht
  exact ⟨r, h1, h2, h3, h4.tight⟩

end
end NcDiff
