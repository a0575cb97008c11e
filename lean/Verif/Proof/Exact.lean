import Verif.Proof.Diff
import Verif.Proof.Settled
import Verif.Proof.StandIn
import Verif.Proof.Prefer
/-!
# The order condition is necessary
-/

namespace NcDiff

section
variable {ω : Prop} {d : Device} {sc : Scope} {S T D R : Elem} {t : QName}

/-- Entries that come in the same order meet the order condition. -/
theorem settles_of_target (vS : Valid d sc S) (vT : Valid d sc T)
    (h : (S.kids.map (uid d sc)).filter (fun u => u.1 = t) = targetOf d sc T t) :
    OrderSettles d sc t S.kids T.kids := by
  refine settles_of_kept vS vT ?_
  intro x y hb hx hy x' hx' y' hy' sx sy
  have h1 := target_before (d := d) (sc := sc) hb hx hy
  rw [h] at h1
  obtain ⟨x2, y2, hb2, e1, e2⟩ := before_of_uid (h1.trans List.filter_sublist)
  have mx := (same_uid vS vT hb.mem_left hx').2 sx
  have my := (same_uid vS vT hb.mem_right hy').2 sy
  rw [← List.inj_on_of_nodup_map vT.indexable.nodup hb2.mem_left hx' (e1.trans mx),
    ← List.inj_on_of_nodup_map vT.indexable.nodup hb2.mem_right hy' (e2.trans my)]
  exact hb2

/-- Configs that are the same meet the order condition at every level. -/
theorem AllSettle.of_same : ∀ {S : Elem} {sc : Scope} {T : Elem}, Valid d sc S → Valid d sc T → SameConfig d sc S T →
    AllSettle d sc S T := by
  intro S
  induction S using Elem.ind with
  | h tg n a x ks ih =>
    intro sc T vS vT h
    refine .mk ?_ ?_
    · intro t ht
      exact settles_of_target vS vT (targetOf_same vS vT h ht)
    · intro s hs k hk hsk f hf _
      have hfs : d.lookup sc s.tag = .ok f := by rw [hsk.1]; exact hf
      exact ih s hs (vS.sub' s hs f hfs) (vT.sub' k hk f hf) (h.sub' hs hk hsk hfs)

/-- A delta with nothing in it says that nothing moves. -/
theorem Diff.empty (h : Diff ω d sc S T D) (hk : D.kids = []) : Diff True d sc S T D := by
  have B := h.base'
  have none : ∀ o, o ∉ D.kids := by rw [hk]; simp
  refine ⟨⟨B.vS, B.nS, B.vT, B.vD, B.lD, B.aS, B.aT, B.tag, B.value, B.cellS, B.cellT, B.only, B.gone, B.goneOp, B.new,
    B.newOp, B.bothOp, B.out, B.pos, ?_, B.full, B.seq, B.texts⟩, ?_, ?_, ?_, ?_⟩
  · intro _ t ht
    have ha : addsOf d sc S T D t = [] := by simp [addsOf, hk]
    have hm : movesOf d sc S T D t = [] := by simp [movesOf, hk]
    unfold Ends
    rw [ha, hm, List.append_nil, List.foldl_nil]
    rcases B.full t ht with hall | hall
    · have e1 : targetOf d sc T t = [] := by
        rw [targetOf_eq, List.map_eq_nil_iff, List.filter_eq_nil_iff]
        intro k hkT hkt
        obtain ⟨o, ho, _⟩ := hall k hkT (by simpa using hkt)
        exact none o ho
      rw [e1, List.eq_nil_iff_forall_not_mem]
      intro u hu
      have := mem_target.2 (mem_stays.1 hu).2.symm
      rw [e1] at this
      simp at this
    · rw [← hall]
      refine List.filter_congr ?_
      intro u hu
      rw [Bool.eq_iff_iff]
      simp only [decide_eq_true_eq]
      refine ⟨fun h => h.1, fun h => ⟨h, ?_⟩⟩
      have : u ∈ targetOf d sc T t := by rw [← hall]; exact List.mem_filter.2 ⟨hu, by simpa using h⟩
      exact (mem_target.1 this).1
  · intro s _ _ m hm; exact absurd hm (none m)
  · intro s _ _ m hm; exact absurd hm (none m)
  · intro s _ _ m hm; exact absurd hm (none m)
  · intro s _ k _ m hm; exact absurd hm (none m)

/-- A node without an operation is merged. -/
theorem NoOp.merge {o : Elem} (h : NoOp o) : opOf o = "merge" := by
  unfold NoOp at h
  simp [opOf, h]

/-- If the sum is the target, the order condition is met at every level. -/
theorem Diff.settles {opts : Opts} (ho : opts.replace = .merge) (h : Diff ω d sc S T D) : ∀ {R : Elem},
    Prefers d opts sc S T D → nodeAdd d D sc S = .ok R → SameConfig d sc R T → AllSettle d sc S T := by
  have hlev := h.level.1
  induction h with
  | @mk sc S T D B gone newC newL both _ _ _ iboth =>
    intro R hp hR hs
    cases hp with
    | whole h' => rw [ho] at h'; cases h'
    | same h' _ => exact .of_same B.vS B.vT h'
    | level _ _ _ _ _ bothP =>
      have vR := (nodeAdd_valid d D sc S R B.vS B.nS B.vD B.lD hR).1
      obtain ⟨R', hR', _, hord⟩ := hlev.add'
      obtain rfl : R = R' := Except.ok.inj (hR.symm.trans hR')
      refine .mk ?_ ?_
      · intro t ht
        have he : Ends d sc S T D t := (hord t ht).symm.trans (targetOf_same vR B.vT hs ht)
        rcases B.full t ht with hall | hall
        · exact settles_of_ends B.vS B.vT hall B.seq he
        · exact settles_of_target B.vS B.vT hall
      · intro s hsm k hk hsk f hf hn
        have hfs : d.lookup sc s.tag = .ok f := by rw [hsk.1]; exact hf
        have hsu := (same_uid B.vS B.vT hsm hk).2 hsk
        by_cases hD : ∃ o ∈ D.kids, uid d sc o = uid d sc k
        · obtain ⟨o, hoD, hou⟩ := hD
          have hko := (same_uid B.vT B.vD hk hoD).1 hou.symm
          have hpo := bothP s hsm k hk hsk o hoD hko f hf hn
          have hop : opOf o = "merge" := by
            cases hpo with
            | whole h' => rw [ho] at h'; cases h'
            | same _ op => cases op with | mk here _ => exact here.merge
            | level _ op => exact op.merge
          have hd := both s hsm k hk o hoD hsu hou hop f hf hn
          obtain ⟨hl, e, he, _⟩ := hd.level
          refine iboth s hsm k hk o hoD hsu hou hop f hf hn hl hpo he ?_
          obtain ⟨g, x, hg, hx, hat⟩ := (nodeAdd_at hR B.vS.shape' B.nS.here'.2 B.lD.here').2.1 s hsm o hoD (hsu.trans hou.symm)
          obtain rfl : f = g := Except.ok.inj (hfs.symm.trans hg)
          have hx' : peerTree f.node (o, addFn d o) s = .ok x := by
            rcases hn with hn | hn <;> simpa only [peerContent, hn] using hx
          have hadd : addFn d o (.node f.node) s = .ok e := he
          simp only [peerTree, hop, if_true, hadd, bind, Except.bind] at hx'
          -- the counterpart of `k` in the sum
          obtain ⟨y, hy, hky⟩ : ∃ y ∈ R.kids, SameInstance d sc k y := by
            cases hs.2 with
            | mk _ _ _ kids _ _ => exact kids k hk
          have hyu := (same_uid B.vT vR hk hy).2 hky
          have hyat : y ∈ elemsAt d sc (uid d sc s) R.kids := List.mem_filter.2 ⟨hy, by simp [← hyu, hsu]⟩
          rw [hat] at hyat
          obtain rfl : y = e := by
            split at hx'
            · cases hx'
              simp [PeerRes.elem] at hyat
            · cases hx'
              simpa [PeerRes.elem] using hyat
          exact hs.sub' hy hk hky.symm (by rw [← hky.1]; exact hf)
        · push_neg at hD
          exact .of_same (B.vS.sub' s hsm f hfs) (B.vT.sub' k hk f hf) (B.out s hsm k hk hsu hD f hf)

end
end NcDiff
