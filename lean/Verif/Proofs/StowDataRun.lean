/-
The invariant for property C62 holds in every run.
-/
import Verif.Proofs.StowDataStep

namespace Verif.StowData
open Verif Stow Props
open _root_.Verif.Rsilo (cstr)

/-- What is assumed about the steps: the file that is opened is not empty; the metadata job ends after the filter job. -/
def EvOk (s : Sys) : Ev → Prop
  | .round sz c _ _ => 0 < sz ∧ c ≠ []
  | .metaStored => s.sv.job = none
  | _ => True

theorem round_inv {g : Cfg} {files : List Item} (hg : CfgOk g files) {k0 : Bytes → Bool} {s : Sys} (h : DInv g files k0 s) {sz : Nat} {c : Bytes} (a b : Bool)
    (hsz : 0 < sz) (hc : c ≠ []) : ∃ s', round g sz c a b s = .ok s' ∧ (InOrder g s' → DInv g files k0 s') := by
  have h1 : ∃ s1, (if a && s.enable then out g sz c s else .ok s) = .ok s1 ∧ DInv g files k0 s1 := by
    split
    · rename_i he
      simp only [Bool.and_eq_true] at he
      exact out_inv hg h he.2 hsz hc
    · exact ⟨s, rfl, h⟩
  obtain ⟨s1, e1, h1⟩ := h1
  unfold round
  rw [e1, Res.ok_bind]
  cases b with
  | true => exact inn_inv hg h1
  | false => exact ⟨s1, rfl, fun _ => h1⟩

theorem mtree_inv {g : Cfg} {files : List Item} {k0 : Bytes → Bool} {s : Sys} (h : DInv g files k0 s) (ha : s.avail < s.cl.subj.length) :
    ∃ s', mtree s = .ok s' ∧ DInv g files k0 s' := by
  have hne : s.cl.subj ≠ [] := by intro h; rw [h] at ha; cases ha
  have hgone : s.gone = false := by
    rcases h.rest with he | hl
    · exact he.gone
    · cases hl.phase with
      | due a1 a2 a3 => exact a3
      | way fs is a1 a2 a3 => exact a3
      | answer fs u a1 a2 a3 => exact a3
      | done a1 a2 a3 a4 a5 a6 a7 a8 a9 => exact absurd a9 hne
  refine ⟨_, ctl_ok (by exact hgone) true, ⟨base_same h.base rfl, ?_, h.snt, h.tk, h.cont, h.kn, fun k => absurd (hgone.symm.trans k) (by decide), ?_⟩⟩
  · have := h.av
    simp only
    split <;> omega
  · rcases h.rest with he | hl
    · exact .inl { he with }
    · right
      refine { hl with phase := ?_ }
      cases hl.phase with
      | due a1 a2 a3 a4 a5 a6 a7 a8 => exact .due a1 a2 a3 a4 a5 a6 a7 a8
      | way fs is a1 a2 a3 a4 a5 a6 => exact absurd a6 hne
      | answer fs u a1 a2 a3 a4 a5 a6 a7 a8 => exact absurd a8 hne
      | done a1 a2 a3 a4 a5 a6 a7 a8 a9 => exact absurd a9 hne

theorem recvFilter_inv {g : Cfg} {files : List Item} (hg : CfgOk g files) {k0 : Bytes → Bool} {s : Sys} (h : DInv g files k0 s) {p : Bytes} {up : List Msg}
    (hu : s.up = .filter p :: up) : ∃ s', input g s s.up = .ok s' ∧ DInv g files k0 s' ∧ s'.cl = s.cl := by
  have hs : Stow.step g.n g.max (filt s) .recv = some (Stow.input g.n g.max s.sv p >>= fun r => .ok { (filt s) with sv := r.2, up := fMsgs up, down := fMsgs s.down ++ r.1 }) := by
    simp only [Stow.step, filt, hu, fMsgs_f]
  obtain ⟨u', hu', hb⟩ := base_step hg h.base hs
  obtain ⟨r, hr, e⟩ := Res.bind_eq_ok.1 hu'
  cases e
  rw [hu]
  unfold input
  simp only [hr, Res.ok_bind]
  refine ⟨_, rfl, ⟨base_same hb (by simp [filt]), h.av, h.snt, h.tk, h.cont, h.kn, h.gone, ?_⟩, rfl⟩
  rcases h.rest with he | hl
  · left
    have h1 := he.iup
    have h2 := he.flow
    rw [hu] at h1 h2
    exact { he with iup := by simpa using h1, idown := by simp [he.idown], flow := by simpa using h2 }
  · right
    have h1 := hl.dup
    rw [hu] at h1
    refine { hl with dup := by simpa using h1, ddown := by simp [hl.ddown], phase := ?_ }
    cases hl.phase with
    | due a1 a2 a3 a4 a5 a6 a7 a8 => exact .due a1 a2 a3 a4 a5 a6 (by rw [hu] at a7; simpa using a7) (by simp [a8])
    | way fs is a1 a2 a3 a4 a5 a6 a7 a8 =>
      cases fs with
      | nil =>
        rw [hu] at a7
        cases is with
        | nil => cases a7
        | cons i is => simp at a7
      | cons f fs =>
        rw [hu] at a7
        simp only [List.map_cons, List.cons_append, List.cons.injEq] at a7
        refine .way fs is a1 a2 a3 a4 (by simp [a5]) a6 a7.2 ?_
        rcases a8 with h' | ⟨b, Q, k1, k2, k3, k4⟩ | ⟨k1, k2, k3, k4⟩
        · exact .inl h'
        · cases k3
        · cases k3
    | answer fs u a1 a2 a3 a4 a5 a6 a7 => rw [a7] at hu; cases hu
    | done a1 a2 a3 a4 a5 a6 a7 a8 => rw [a8] at hu; cases hu

theorem recvData_inv {g : Cfg} {files : List Item} {k0 : Bytes → Bool} {s : Sys} (h : DInv g files k0 s) (hp : s.pend = none) {p : Bytes} {up : List Msg}
    (hu : s.up = .data p :: up) : ∃ s', input g s s.up = .ok s' ∧ DInv g files k0 s' ∧ s'.cl = s.cl := by
  have he : Early g s := by
    rcases h.rest with he | hl
    · exact he
    · have := hl.dup
      rw [hu] at this
      simp at this
  obtain ⟨D, r1, r2, r3, f1, f2, f3, f4, f5, f6, f7, f8⟩ := he.flow
  have h1 := he.iup
  rw [hu] at h1
  rw [hp] at f4
  have hr2 : r2 = [] := List.map_eq_nil_iff.1 f4.symm
  subst hr2
  rw [hu, dMsgs_d, flow_cons_iff] at f5
  rw [hu]
  unfold input
  simp only
  by_cases hpe : p = []
  · rw [if_pos hpe] at f5
    obtain ⟨b, cs', k1, k2, k3⟩ := f5
    rw [if_pos hpe]
    cases r3 with
    | nil => cases k2
    | cons a r3 =>
      obtain ⟨x, c⟩ := a
      simp only [List.map_cons, List.cons.injEq] at k2
      obtain ⟨rfl, rfl⟩ := k2
      rw [k1]
      simp only [Option.isSome, Res.check_true, Res.ok_bind]
      refine ⟨_, rfl, ⟨base_same h.base (by simp [filt, hu]), h.av, h.snt, h.tk, h.cont, h.kn, h.gone, .inl ?_⟩, rfl⟩
      exact { he with
        iup := by simpa using h1
        flow := ⟨D, r1, [(x, c)], r3, by simp [f1], by simp [f2], f3, rfl, k3, f6, f7, f8⟩ }
  · rw [if_neg hpe] at f5
    rw [if_neg hpe]
    refine ⟨_, rfl, ⟨base_same h.base (by simp [filt, hu]), h.av, h.snt, h.tk, h.cont, h.kn, h.gone, .inl ?_⟩, rfl⟩
    exact { he with
      iup := by simpa using h1
      flow := ⟨D, r1, [], r3, f1, f2, f3, by rw [hp]; rfl, f5, f6, f7, f8⟩ }

theorem cstr_sha {g : Cfg} {files : List Item} (hg : CfgOk g files) (c : Bytes) : cstr (g.sha c) = g.sha c := by
  apply takeWhile_of_all
  intro x hx
  simp only [bne_iff_ne, decide_eq_true_eq, ne_eq]
  rintro rfl
  exact (hg.sha c).2.2 hx

theorem recvInfo_inv {g : Cfg} {files : List Item} (hg : CfgOk g files) {k0 : Bytes → Bool} {s : Sys} (h : DInv g files k0 s) {p : Bytes} {up : List Msg}
    (hu : s.up = .info p :: up) : ∃ s', input g s s.up = .ok s' ∧ DInv g files k0 s' ∧ s'.cl = s.cl := by
  rcases h.rest with he | hl
  · have := he.iup
    rw [hu] at this
    simp at this
  have h1 := hl.dup
  rw [hu] at h1
  cases hl.phase with
  | due a1 a2 a3 a4 a5 a6 a7 a8 => rw [hu] at a7; simp at a7
  | answer fs u a1 a2 a3 a4 a5 a6 a7 => rw [a7] at hu; cases hu
  | done a1 a2 a3 a4 a5 a6 a7 a8 => rw [a8] at hu; cases hu
  | way fs is a1 a2 a3 a4 a5 a6 a7 a8 =>
    have a7' := a7
    rw [hu] at a7'
    cases fs with
    | cons f fs => simp at a7'
    | nil =>
      cases is with
      | nil => cases a7'
      | cons i is =>
        simp only [List.map_nil, List.nil_append, List.map_cons, List.cons.injEq, Msg.info.injEq] at a7'
        obtain ⟨rfl, rfl⟩ := a7'
        rw [hu]
        unfold input
        rcases a8 with ⟨k1, k2, k3⟩ | ⟨b, Q, k1, k2, k3, k4, k5, k6⟩ | ⟨k1, k2, k3, k4⟩
        · obtain ⟨Q, e1, e2, e3⟩ := metaMsgs_spec g (g.sha g.text) s.changed
          rw [e1] at k3
          simp only [List.cons_append, List.cons.injEq] at k3
          obtain ⟨rfl, rfl⟩ := k3
          have hl64 := (hg.sha g.text).1
          simp only [k1, cstr_sha hg]
          rw [decide_eq_true (show (g.sha g.text).length + 1 < 8192 by omega)]
          simp only [Res.check_true, Res.ok_bind]
          refine ⟨_, rfl, ⟨base_same h.base (by simp [filt, hu]), h.av, h.snt, h.tk, h.cont, h.kn, h.gone, .inr ?_⟩, rfl⟩
          refine { hl with dup := by simp, phase := ?_ }
          exact .way [] (Q ++ [[]]) a1 a2 a3 a4 a5 a6 rfl (.inr (.inl ⟨[], Q, rfl, k2, rfl, rfl, e2, by simpa [metaOf] using e3⟩))
        · simp only [k1]
          cases Q with
          | nil =>
            simp only [List.nil_append, List.cons.injEq] at k4
            obtain ⟨rfl, rfl⟩ := k4
            simp only [ne_eq, not_true_eq_false, if_false]
            refine ⟨_, rfl, ⟨base_same h.base (by simp [filt, hu]), h.av, h.snt, h.tk, h.cont, h.kn, h.gone, .inr ?_⟩, rfl⟩
            refine { hl with dup := by simp, phase := ?_ }
            refine .way [] [] a1 a2 a3 a4 a5 a6 rfl (.inr (.inr ⟨rfl, ?_, rfl, rfl⟩))
            simp only [List.flatten_nil, List.append_nil] at k6
            show some ((metaOf g s).1, b) = _
            rw [k6]
            rfl
          | cons q Q =>
            simp only [List.cons_append, List.cons.injEq] at k4
            obtain ⟨rfl, rfl⟩ := k4
            rw [if_pos (k5 p (by simp))]
            refine ⟨_, rfl, ⟨base_same h.base (by simp [filt, hu]), h.av, h.snt, h.tk, h.cont, h.kn, h.gone, .inr ?_⟩, rfl⟩
            refine { hl with dup := by simp, phase := ?_ }
            refine .way [] (Q ++ [[]]) a1 a2 a3 a4 a5 a6 rfl (.inr (.inl ⟨b ++ p, Q, rfl, k2, rfl, rfl, fun q hq => k5 q (by simp [hq]), ?_⟩))
            refine Eq.trans ?_ k6
            simp
        · cases k4

theorem recv_inv {g : Cfg} {files : List Item} (hg : CfgOk g files) {k0 : Bytes → Bool} {s : Sys} (h : DInv g files k0 s) (hp : s.pend = none) :
    ∃ s', input g s s.up = .ok s' ∧ DInv g files k0 s' ∧ s'.cl = s.cl := by
  cases hu : s.up with
  | nil => exact ⟨s, rfl, h, rfl⟩
  | cons m up =>
    rw [← hu]
    cases m with
    | filter p => exact recvFilter_inv hg h hu
    | data p => exact recvData_inv h hp hu
    | info p => exact recvInfo_inv hg h hu

/-- The filter job does something. -/
theorem job_inv {g : Cfg} {files : List Item} {k0 : Bytes → Bool} {s : Sys} (h : DInv g files k0 s) (hj : s.sv.job ≠ none) (sv : Server) (fs : List Bytes)
    (log : List (Bytes × Bool)) (hb : Base g files k0 { (filt s) with sv := sv, down := fMsgs s.down ++ fs, log := log }) :
    DInv g files k0 { s with sv := sv, down := s.down ++ fs.map .filter, log := log } := by
  refine ⟨base_same hb (by simp [filt]), h.av, h.snt, h.tk, h.cont, h.kn, h.gone, ?_⟩
  rcases h.rest with he | hl
  · exact .inl { he with idown := by simp [he.idown], flow := by simpa using he.flow }
  · right
    refine { hl with ddown := by simp [hl.ddown], phase := ?_ }
    cases hl.phase with
    | due a1 a2 a3 a4 a5 a6 a7 a8 => exact .due a1 a2 a3 a4 a5 a6 a7 (by simp [a8])
    | way fs' is a1 a2 a3 a4 a5 a6 a7 a8 => exact .way fs' is a1 a2 a3 a4 (by simp [a5]) a6 a7 a8
    | answer fs' u a1 a2 a3 a4 a5 a6 a7 a8 a9 => exact absurd a9 hj
    | done a1 a2 a3 a4 a5 a6 a7 a8 a9 a10 => exact absurd a10 hj

theorem other_inv {g : Cfg} {files : List Item} (hg : CfgOk g files) {k0 : Bytes → Bool} {s : Sys} (h : DInv g files k0 s) (ids : Bytes → Bool) :
    DInv g files k0 { s with known := fun x => s.known x || ids x } := by
  have hs : Stow.step g.n g.max (filt s) (.store ids) = some (.ok (filt { s with known := fun x => s.known x || ids x })) := rfl
  refine ⟨base_ok hg h.base hs, h.av, h.snt, h.tk, h.cont, fun c hc => by simp [h.kn c hc], h.gone, ?_⟩
  rcases h.rest with he | hl
  · exact .inl { he with }
  · right
    refine { hl with phase := ?_ }
    cases hl.phase with
    | due a1 a2 a3 a4 a5 a6 a7 a8 => exact .due a1 a2 a3 a4 a5 a6 a7 a8
    | way fs' is a1 a2 a3 a4 a5 a6 a7 a8 => exact .way fs' is a1 a2 a3 a4 a5 a6 a7 a8
    | answer fs' u a1 a2 a3 a4 a5 a6 a7 a8 a9 a10 a11 a12 => exact .answer fs' u a1 a2 a3 a4 a5 a6 a7 a8 a9 a10 a11 a12
    | done a1 a2 a3 a4 a5 a6 a7 a8 a9 a10 a11 a12 => exact .done a1 a2 a3 a4 a5 a6 a7 a8 a9 a10 a11 a12

theorem stored_inv {g : Cfg} {files : List Item} (hg : CfgOk g files) {k0 : Bytes → Bool} {s : Sys} (h : DInv g files k0 s) {d : Bytes} (hp : s.pend = some d) :
    DInv g files k0 { s with pend := none, stored := s.stored ++ [d], known := fun x => s.known x || x == g.ident d, down := s.down ++ [.data (g.pfx ++ g.ident d)] } := by
  have hs : Stow.step g.n g.max (filt s) (.store (fun x => x == g.ident d)) = some (.ok { (filt s) with known := fun x => s.known x || x == g.ident d }) := rfl
  refine ⟨base_same (base_ok hg h.base hs) (by simp [filt]), h.av, h.snt, h.tk, h.cont, ?_, h.gone, ?_⟩
  · intro c hc
    rcases List.mem_append.1 hc with hc | hc
    · simp [h.kn c hc]
    · rw [List.mem_singleton.1 hc]; simp
  · rcases h.rest with he | hl
    · left
      obtain ⟨D, r1, r2, r3, f1, f2, f3, f4, f5, f6, f7, f8⟩ := he.flow
      rw [hp] at f4
      cases r2 with
      | nil => cases f4
      | cons a r2 =>
        obtain ⟨x, c⟩ := a
        simp only [Option.toList, List.map_cons, List.cons.injEq] at f4
        obtain ⟨rfl, f4⟩ := f4
        have hr2 : r2 = [] := List.map_eq_nil_iff.1 f4.symm
        subst hr2
        exact { he with
          idown := by simp [he.idown]
          flow := ⟨D, r1 ++ [(x, d)], [], r3, by simp [f1], by simp [f2], by simp [f3], rfl, f5, by simp [f6], f7, f8⟩ }
    · rw [hl.pend] at hp; cases hp

theorem metaStored_inv {g : Cfg} {files : List Item} (hg : CfgOk g files) {k0 : Bytes → Bool} {s : Sys} (h : DInv g files k0 s) {ref b : Bytes}
    (hp : s.mpend = some (ref, b)) (hj : s.sv.job = none) :
    s.known ref = true ∧ DInv g files k0 { s with mpend := none, metas := s.metas ++ [(ref, b)], down := s.down ++ [.info (g.pfx ++ g.mid ref b)] } := by
  rcases h.rest with he | hl
  · rw [he.mpend] at hp; cases hp
  cases hl.phase with
  | due a1 a2 a3 a4 a5 => rw [a5] at hp; cases hp
  | answer fs u a1 a2 a3 a4 a5 => rw [a5] at hp; cases hp
  | done a1 a2 a3 a4 a5 a6 => rw [a6] at hp; cases hp
  | way fs is a1 a2 a3 a4 a5 a6 a7 a8 =>
    rcases a8 with ⟨k1, k2, k3⟩ | ⟨b, Q, k1, k2, k3, k4, k5, k6⟩ | ⟨k1, k2, k3, k4⟩
    · rw [k2] at hp; cases hp
    · rw [k2] at hp; cases hp
    · rw [k2] at hp
      have hp' := Option.some.inj hp
      have hr : ref = g.ident g.text := (congrArg Prod.fst hp').symm
      subst k3 k4
      refine ⟨?_, ⟨base_same h.base (by simp [filt]), h.av, h.snt, h.tk, h.cont, h.kn, h.gone, .inr ?_⟩⟩
      · rw [hr]
        rcases hl.tree with ht | ht
        · apply h.kn
          rw [hl.stored]
          have : treeItem g ∈ s.sent.map (·.1) := by rw [h.snt, hl.taken, List.take_length]; exact ht
          obtain ⟨a, ha, e⟩ := List.mem_map.1 this
          refine List.mem_map.2 ⟨a, ha, ?_⟩
          exact (h.cont a ha).2 (by rw [e]; rfl)
        · exact base_flushed h.base (treeItem g) ht (tree_ne hg)
      · refine { hl with ddown := by simp [hl.ddown], phase := ?_ }
        refine .answer (fMsgs s.down) (g.pfx ++ g.mid ref b) a1 a2 a3 k1 rfl ?_ a7 a6 hj (base_busy h.base hj) ?_ ?_
        · show s.metas ++ [(ref, b)] = _
          rw [a4, ← hp']; rfl
        · exact congrArg (· ++ _) (only_filter hl.ddown a5)
        · have h1 := hg.len
          have h2 := hg.mid ref b
          rw [List.length_append]; omega

theorem step_inv {g : Cfg} {files : List Item} (hg : CfgOk g files) {k0 : Bytes → Bool} {s : Sys} (h : DInv g files k0 s) {e : Ev} {r : Res Sys}
    (he : EvOk s e) (hs : step g s e = some r) : ∃ s', r = .ok s' ∧ (InOrder g s' → DInv g files k0 s') := by
  cases e with
  | round sz c a b =>
    obtain ⟨s', h1, h2⟩ := round_inv hg h a b he.1 he.2
    exact ⟨s', by rw [← Option.some.inj hs, h1], h2⟩
  | mtree =>
    simp only [step] at hs
    split at hs
    · rename_i ha
      obtain ⟨s', h1, h2⟩ := mtree_inv h ha
      exact ⟨s', by rw [← Option.some.inj hs, h1], fun _ => h2⟩
    · cases hs
  | recv =>
    simp only [step] at hs
    split at hs
    · rename_i ha
      obtain ⟨s', h1, h2, -⟩ := recv_inv hg h ha.1
      exact ⟨s', by rw [← Option.some.inj hs, h1], fun _ => h2⟩
    · cases hs
  | run =>
    simp only [step] at hs
    split at hs
    · rename_i inp skip hj
      have hb : Stow.step g.n g.max (filt s) .run = some (.ok { (filt s) with
          sv := { s.sv with job := some ⟨inp, some (missing g.n s.known inp), skip⟩ },
          log := s.log ++ inp.map (fun l => (l.take g.n, !s.known (l.take g.n))) }) := by simp only [Stow.step, filt, hj]
      obtain ⟨u, e1, hb⟩ := base_step hg h.base hb
      cases e1
      refine ⟨_, (Option.some.inj hs).symm, fun _ => ?_⟩
      have := job_inv h (by rw [hj]; simp) { s.sv with job := some ⟨inp, some (missing g.n s.known inp), skip⟩ } []
        (s.log ++ inp.map (fun l => (l.take g.n, !s.known (l.take g.n)))) (base_same hb (by simp [filt]))
      simpa using this
    · cases hs
  | line =>
    simp only [step] at hs
    split at hs
    · rename_i inp l ls skip hj
      have hb : Stow.step g.n g.max (filt s) .line = some (filterLine g.n ⟨inp, some (l :: ls), skip⟩ l ls >>= fun r =>
          .ok { (filt s) with sv := { s.sv with job := some r.2 }, down := fMsgs s.down ++ [r.1] }) := by simp only [Stow.step, filt, hj]
      obtain ⟨u, e1, hb⟩ := base_step hg h.base hb
      obtain ⟨r', hr, e2⟩ := Res.bind_eq_ok.1 e1
      cases e2
      rw [hr, Res.ok_bind] at hs
      refine ⟨_, (Option.some.inj hs).symm, fun _ => ?_⟩
      exact job_inv h (by rw [hj]; simp) _ [r'.1] _ (base_same hb (by simp [filt]))
    · cases hs
  | eof =>
    simp only [step] at hs
    split at hs
    · rename_i inp skip hj
      have hb : Stow.step g.n g.max (filt s) .eof = some (.ok { (filt s) with
          sv := (filterEnd g.max s.sv ⟨inp, some [], skip⟩).2,
          down := fMsgs s.down ++ (filterEnd g.max s.sv ⟨inp, some [], skip⟩).1 }) := by simp only [Stow.step, filt, hj]
      obtain ⟨u, e1, hb⟩ := base_step hg h.base hb
      cases e1
      refine ⟨_, (Option.some.inj hs).symm, fun _ => ?_⟩
      exact job_inv h (by rw [hj]; simp) _ _ _ (base_same hb (by simp [filt]))
    · cases hs
  | stored =>
    simp only [step] at hs
    split at hs
    · cases hs
    · rename_i d hp
      exact ⟨_, (Option.some.inj hs).symm, fun _ => stored_inv hg h hp⟩
  | metaStored =>
    simp only [step] at hs
    split at hs
    · cases hs
    · rename_i ref b hp
      obtain ⟨h1, h2⟩ := metaStored_inv hg h hp he
      rw [h1] at hs
      simp only [Res.check_true, Res.ok_bind] at hs
      exact ⟨_, (Option.some.inj hs).symm, fun _ => h2⟩
  | other ids => exact ⟨_, (Option.some.inj hs).symm, fun _ => other_inv hg h ids⟩

/-- The assumptions about the steps of a run: those on each step, and that the list of files is never found in the archive while files
are not. -/
def RunOk (g : Cfg) (s : Sys) : List Ev → Prop
  | [] => True
  | e :: es => EvOk s e ∧ ∀ s', step g s e = some (.ok s') → InOrder g s' ∧ RunOk g s' es

theorem run_inv {g : Cfg} {files : List Item} (hg : CfgOk g files) {k0 : Bytes → Bool} : ∀ (es : List Ev) {s : Sys} {r : Res Sys}, DInv g files k0 s →
    RunOk g s es → run g s es = some r → ∃ s', r = .ok s' ∧ DInv g files k0 s'
  | [], s, r, h, _, hr => ⟨s, (Option.some.inj hr).symm, h⟩
  | e :: es, s, r, h, ho, hr => by
    rw [run] at hr
    cases hs : step g s e with
    | none => rw [hs] at hr; cases hr
    | some r1 =>
      obtain ⟨s1, rfl, h1⟩ := step_inv hg h ho.1 hs
      rw [hs] at hr
      obtain ⟨o1, o2⟩ := ho.2 s1 hs
      exact run_inv hg es (h1 o1) o2 hr

theorem dinv_start {g : Cfg} (files : List Item) (known : Bytes → Bool) : DInv g files known (start g files [] known) := by
  refine ⟨⟨⟨[], [], [], ?_⟩, fun _ h => h, ?_⟩, ?_, rfl, Nat.le_refl _, ?_, ?_, fun h => (by cases h), .inl ?_⟩
  · exact inv_start g.n g.max files (g.sha g.text) known
  · intro e he; cases he
  · right
    simp [start]
  · intro p hp; cases hp
  · intro c hc; cases hc
  · exact ⟨rfl, rfl, rfl, rfl, rfl, rfl, rfl, rfl, (by intro h; cases h),
      [], [], [], [], rfl, rfl, rfl, rfl, (by simp [start, flow_nil_iff]), rfl, rfl, by simp⟩

end Verif.StowData
