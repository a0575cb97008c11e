import Verif.Spec.Cache
/-!
# Proofs about the files in the folder
-/

namespace NcDiff.Cache

variable {T : Tool}

/-- What is in the folder belongs to the YANG files. -/
structure Sound (T : Tool) (files : Files) (f : Folder) : Prop where
  yang : f.yang = files
  table : ∀ t, readXml f "dependencies" = some t → T.IsTable files t
  cache : ∀ m t, m ≠ "dependencies" → readXml f m = some t → FromFiles T files m (.ok t)

theorem readXml_set {f : Folder} {n : String} {c : Option Elem} (m : String) :
    readXml (setXml f n c) m = if m = n then c else readXml f m := by
  unfold readXml setXml
  dsimp only
  split
  · rfl
  · rfl

theorem Sound.setTable {files : Files} {f : Folder} (h : Sound T files f) {c : Option Elem}
    (hc : ∀ t, c = some t → T.IsTable files t) : Sound T files (setXml f "dependencies" c) where
  yang := h.yang
  table t ht := by
    rw [readXml_set, if_pos rfl] at ht
    exact hc t ht
  cache m t hm ht := by
    rw [readXml_set, if_neg hm] at ht
    exact h.cache m t hm ht

theorem Sound.setCache {files : Files} {f : Folder} (h : Sound T files f) {m : Module} (hm : m ≠ "dependencies") {c : Option Elem}
    (hc : ∀ t, c = some t → FromFiles T files m (.ok t)) : Sound T files (setXml f m c) where
  yang := h.yang
  table t ht := by
    rw [readXml_set, if_neg (Ne.symm hm)] at ht
    exact h.table t ht
  cache m' t hm' ht := by
    rw [readXml_set] at ht
    split at ht
    · rename_i he
      subst he
      exact hc t ht
    · exact h.cache m' t hm' ht

theorem Sound.build {files : Files} {f f' : Folder} {t : Elem} (h : Sound T files f) (hb : Build T f f' t) :
    Sound T files f' ∧ T.IsTable files t := by
  cases hb with
  | read h1 => exact ⟨h, h.table t h1⟩
  | make h1 h2 =>
    rw [h.yang] at h2
    exact ⟨h.setTable fun t' e => by cases e; exact h2, h2⟩

theorem build_caps {f f' : Folder} {t : Elem} (hb : Build T f f' t) : f'.caps = f.caps := by
  cases hb <;> rfl

theorem build_table {f f' : Folder} {t : Elem} (hb : Build T f f' t) : readXml f' "dependencies" = some t := by
  cases hb with
  | read h1 => exact h1
  | make h1 h2 => rw [readXml_set, if_pos rfl]

theorem sound_new {files : Files} {caps : Option String} {c : Option Elem} {x : Option (Option Elem)} (hx : x.join = c)
    (hc : ∀ t, c = some t → T.IsTable files t) : Sound T files ⟨caps, files, fun n => if n = "dependencies" then x else none⟩ where
  yang := rfl
  table t ht := by
    unfold readXml at ht
    dsimp only at ht
    rw [if_pos rfl, hx] at ht
    exact hc t ht
  cache m t hm ht := by
    unfold readXml at ht
    dsimp only at ht
    rw [if_neg hm] at ht
    cases ht

theorem sound_none {files : Files} {caps : Option String} : Sound T files ⟨caps, files, fun _ => none⟩ where
  yang := rfl
  table _ ht := by cases ht
  cache _ _ _ ht := by cases ht

/-- The state can be relied on. -/
def Firm (h : List Label) (s : State) : Prop := Trusted h ∨ ∃ caps, Doubtful caps h ∧ s.folder.caps = some caps

/-- The invariant. -/
structure Inv (T : Tool) (h : List Label) (s : State) : Prop where
  sound : Firm h s → Sound T (filesOf h) s.folder
  tables : Firm h s → ∀ i t, UpToDate i h → s.devices i = some t → T.IsTable (filesOf h) t
  parsed : ∀ i t, s.devices i = some t → ∃ t', readXml s.folder "dependencies" = some t'

theorem left_sound {caps : String} {files : Files} {f f' : Folder} (h : Left T caps files f f') (hn : f.caps ≠ some caps)
    (hc : f'.caps = some caps) : Sound T files f' := by
  cases h with
  | cleaning h1 =>
    rcases h1 with h1 | h1
    · exact absurd (h1 ▸ hc) hn
    · rw [h1] at hc; cases hc
  | downloading => cases hc
  | caps => exact sound_none
  | table => exact sound_new (c := none) rfl (fun _ e => by cases e)

theorem inv_step {h : List Label} {s s' : State} {l : Label} (hi : Inv T h s) (hs : Step T s l s') : Inv T (l :: h) s' := by
  cases hs with
  | @scan mode caps d f1 f2 t i hf hb =>
    cases hf with
    | all hn ht =>
      rename_i files t'
      have h0 : Sound T files ⟨some caps, files, fun x => if x = "dependencies" then some (some t') else none⟩ :=
        sound_new (c := some t') rfl fun _ e => by cases e; exact ht
      obtain ⟨h1, h2⟩ := h0.build hb
      refine ⟨fun _ => h1, fun _ j u hu hd => ?_, fun j u hd => ⟨t, build_table hb⟩⟩
      have hu : j = i := hu
      subst hu
      dsimp only at hd
      rw [if_pos rfl] at hd
      cases hd
      exact h2
    | skip hn =>
      have hfirm : Firm (.scan i mode caps none :: h) ⟨f2, fun x => if x = i then some t else s.devices x⟩ → Firm h s := by
        rintro (h1 | ⟨c, h1, h2⟩)
        · rcases h1 with h1 | ⟨h1, h2⟩
          · exact .inl h1
          · refine .inr ⟨caps, h2, ?_⟩
            apply Classical.byContradiction
            intro h3
            exact hn (.inr ⟨h1, h3⟩)
        · exact .inr ⟨c, h1, (build_caps hb).symm.trans h2⟩
      refine ⟨fun hF => ((hi.sound (hfirm hF)).build hb).1, fun hF j u hu hd => ?_, fun j u hd => ⟨t, build_table hb⟩⟩
      dsimp only at hd
      split at hd
      · cases hd
        exact ((hi.sound (hfirm hF)).build hb).2
      · rename_i hj
        exact hi.tables (hfirm hF) j u ((show j = i ∨ UpToDate j h from hu).resolve_left hj) hd
  | @halted mode caps hn hr =>
    have hfirm : Firm (.halted mode caps :: h) ⟨setXml s.folder "dependencies" none, fun _ => none⟩ → Firm h s := by
      rintro (h1 | ⟨c, h1, h2⟩)
      · rcases h1 with h1 | ⟨h1, h2⟩
        · exact .inl h1
        · refine .inr ⟨caps, h2, ?_⟩
          apply Classical.byContradiction
          intro h3
          exact hn (.inr ⟨h1, h3⟩)
      · exact .inr ⟨c, h1, h2⟩
    exact ⟨fun hF => (hi.sound (hfirm hF)).setTable fun _ e => (by cases e), fun _ _ _ _ hd => (by cases hd),
      fun _ _ hd => (by cases hd)⟩
  | @interrupted mode caps files f1 hn hl =>
    refine ⟨?_, fun _ _ _ _ hd => (by cases hd), fun _ _ hd => (by cases hd)⟩
    rintro (h1 | ⟨c, ⟨h1, h3⟩, h2⟩)
    · exact h1.elim
    · subst h3
      refine left_sound hl ?_ h2
      rcases hn with hn | hn
      · rw [h1] at hn; cases hn
      · exact hn.2
  | @cached i m e t hd hr =>
    have hfirm : Firm (.compile i m (.ok e) :: h) s → Firm h s := by
      rintro (h1 | ⟨c, h1, h2⟩)
      · exact .inl h1.1
      · exact .inr ⟨c, h1.1, h2⟩
    exact ⟨fun hF => hi.sound (hfirm hF), fun hF j u hu hd => hi.tables (hfirm hF) j u hu hd, hi.parsed⟩
  | @compiled i m e t hd hr ho =>
    have hm : m ≠ "dependencies" := by
      rintro rfl
      obtain ⟨t', ht'⟩ := hi.parsed i t hd
      rw [hr] at ht'
      cases ht'
    have hfirm : Firm (.compile i m (.ok e) :: h) { s with folder := setXml s.folder m (some e) } → Firm h s ∧ UpToDate i h := by
      rintro (h1 | ⟨c, h1, h2⟩)
      · exact ⟨.inl h1.1, h1.2⟩
      · exact ⟨.inr ⟨c, h1.1, h2⟩, h1.2⟩
    refine ⟨fun hF => ?_, fun hF j u hu hd => hi.tables (hfirm hF).1 j u hu hd, fun j u hj => ?_⟩
    · have h1 := hi.sound (hfirm hF).1
      refine h1.setCache hm fun e' he => ?_
      cases he
      refine ⟨t, hi.tables (hfirm hF).1 i t (hfirm hF).2 hd, ?_⟩
      rw [← h1.yang]
      exact ho
    · show ∃ t', readXml (setXml s.folder m (some e)) "dependencies" = some t'
      rw [readXml_set, if_neg (Ne.symm hm)]
      exact hi.parsed j u hj
  | @fails i m e t hd hr ho =>
    have hfirm : Firm (.compile i m (.error e) :: h) s → Firm h s := by
      rintro (h1 | ⟨c, h1, h2⟩)
      · exact .inl h1.1
      · exact .inr ⟨c, h1.1, h2⟩
    exact ⟨fun hF => hi.sound (hfirm hF), fun hF j u hu hd => hi.tables (hfirm hF) j u hu hd, hi.parsed⟩
  | @dies i t m hd hr =>
    have hm : m ≠ "dependencies" := by
      rintro rfl
      obtain ⟨t', ht'⟩ := hi.parsed i t hd
      rw [hr] at ht'
      cases ht'
    exact ⟨fun hF => (hi.sound hF).setCache hm fun _ e => (by cases e), fun _ _ _ _ hd => (by cases hd),
      fun _ _ hd => (by cases hd)⟩
  | restart => exact ⟨hi.sound, fun _ _ _ _ hd => (by cases hd), fun _ _ hd => (by cases hd)⟩
  | edit files =>
    refine ⟨?_, ?_, hi.parsed⟩
    · rintro (h1 | ⟨c, h1, -⟩) <;> exact h1.elim
    · rintro (h1 | ⟨c, h1, -⟩) <;> exact h1.elim

theorem run_inv {h : List Label} {s : State} (hr : Run T h s) : Inv T h s := by
  induction hr with
  | start => exact ⟨fun _ => sound_none, fun _ _ _ _ hd => (by cases hd), fun _ _ hd => (by cases hd)⟩
  | step _ hs ih => exact inv_step ih hs

/-- A file that can be parsed stays as it is unless there is a download. -/
theorem step_keeps {s s' : State} {l : Label} (hs : Step T s l s') (hq : Quiet l) {m : String} {e : Elem}
    (h : readXml s.folder m = some e) : readXml s'.folder m = some e := by
  have hset : ∀ (f : Folder) (n : String) (c : Option Elem), readXml f n = none → readXml f m = some e →
      readXml (setXml f n c) m = some e := by
    intro f n c h1 h2
    rw [readXml_set, if_neg]
    · exact h2
    · rintro rfl
      rw [h1] at h2
      cases h2
  cases hs with
  | scan i hf hb =>
    have hq : _ = none := hq
    subst hq
    cases hf with
    | skip hn =>
      cases hb with
      | read => exact h
      | make h1 => exact hset _ _ _ h1 h
  | halted _ h1 => exact hset _ _ _ h1 h
  | interrupted => exact hq.elim
  | cached => exact h
  | compiled _ h1 => exact hset _ _ _ h1 h
  | fails => exact h
  | dies m' _ h1 => exact hset _ _ _ h1 h
  | restart => exact h
  | edit => exact h

theorem reaches_keeps {s s' : State} {h : List Label} (hr : Reaches T s h s') (hq : ∀ l ∈ h, Quiet l) {m : String} {e : Elem}
    (h0 : readXml s.folder m = some e) : readXml s'.folder m = some e := by
  induction hr with
  | refl => exact h0
  | step _ hs ih => exact step_keeps hs (hq _ (.head _)) (ih fun l hl => hq l (.tail _ hl))

/-- After `compile` has returned a tree, the file has it. -/
theorem compile_file {s s' : State} {i : Nat} {m : Module} {e : Elem} (hs : Step T s (.compile i m (.ok e)) s') :
    readXml s'.folder m = some e := by
  cases hs with
  | cached _ h => exact h
  | compiled _ _ _ => rw [readXml_set, if_pos rfl]

theorem compile_reads {s s' : State} {i : Nat} {m : Module} {r : Except Err Elem} (hs : Step T s (.compile i m r) s') {e : Elem}
    (h : readXml s.folder m = some e) : r = .ok e := by
  cases hs with
  | cached _ h1 => rw [h] at h1; cases h1; rfl
  | compiled _ h1 _ => rw [h] at h1; cases h1
  | fails _ h1 _ => rw [h] at h1; cases h1

end NcDiff.Cache
