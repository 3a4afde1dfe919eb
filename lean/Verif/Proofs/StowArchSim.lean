/-
The steps of Model/StowArch.lean are steps of Model/StowData.lean.
-/
import Verif.Proofs.StowArch
import Verif.Props.StowData

namespace Verif.Props
open Verif Header Ident Index Wsilo Segjob Getjob Spec StowArch Filter
open _root_.Verif.StowData (Cfg Sys Ev sendIds sendPiece openNext sendInfo ctl out inn dataResp mtree CfgOk EvOk DInv RunOk run_inv metaStored_inv)
open _root_.Verif.Stow (missing)

/-! ### What does not concern the archive -/

/-- Nothing was stored. -/
def Unstored (s s' : Sys) : Prop := s'.known = s.known ∧ s'.stored = s.stored ∧ s'.metas = s.metas

theorem Unstored.trans {a b c : Sys} (h : Unstored a b) (k : Unstored b c) : Unstored a c := ⟨k.1.trans h.1, k.2.1.trans h.2.1, k.2.2.trans h.2.2⟩

theorem sendIds_unstored : ∀ (k : Nat) (s : Sys), Unstored s (sendIds k s)
  | 0, _ => ⟨rfl, rfl, rfl⟩
  | k + 1, s => by
    unfold sendIds
    split
    · exact ⟨rfl, rfl, rfl⟩
    · exact Unstored.trans ⟨rfl, rfl, rfl⟩ (sendIds_unstored k _)

theorem sendPiece_unstored (sz : Nat) (s : Sys) : Unstored s (sendPiece sz s).1 := by
  unfold sendPiece
  split
  · exact ⟨rfl, rfl, rfl⟩
  · simp only
    split <;> exact ⟨rfl, rfl, rfl⟩

theorem openNext_unstored (g : Cfg) (c : Bytes) (s : Sys) : Unstored s (openNext g c s).1 := by
  unfold openNext
  split
  · exact ⟨rfl, rfl, rfl⟩
  · simp only
    split <;> exact ⟨rfl, rfl, rfl⟩

theorem ctl_unstored {b : Bool} {s s' : Sys} (h : ctl b s = .ok s') : Unstored s s' := by
  unfold ctl at h
  rw [Res.check_bind_eq_ok] at h
  cases h.2
  exact ⟨rfl, rfl, rfl⟩

theorem sendInfo_unstored {g : Cfg} {s s' : Sys} (h : sendInfo g s = .ok s') : Unstored s s' := by
  unfold sendInfo at h
  split at h
  · cases h; exact ⟨rfl, rfl, rfl⟩
  · rw [Res.bind_eq_ok] at h
    obtain ⟨-, -, h⟩ := h
    cases h
    exact ⟨rfl, rfl, rfl⟩

theorem out_unstored {g : Cfg} {sz : Nat} {c : Bytes} {s s' : Sys} (h : out g sz c s = .ok s') : Unstored s s' := by
  have h0 := (sendIds_unstored (min 10 s.avail) s).trans (sendPiece_unstored sz _)
  unfold out at h
  simp only at h
  split at h
  · cases h; exact h0
  · split at h
    · cases h; exact h0
    · have h1 := h0.trans (openNext_unstored g c _)
      split at h
      · cases h; exact h1
      · rw [Res.bind_eq_ok] at h
        obtain ⟨t, h2, h3⟩ := h
        exact (h1.trans (sendInfo_unstored h2)).trans (ctl_unstored h3)

theorem dataResp_unstored {p : Bytes} {s s' : Sys} (h : dataResp s p = .ok s') : Unstored s s' := by
  unfold dataResp at h
  split at h
  · cases h
  · split at h
    · cases h
    · split at h
      · rw [Res.bind_eq_ok] at h
        obtain ⟨-, -, h⟩ := h
        exact (ctl_unstored h :)
      · split at h
        · exact (ctl_unstored h :)
        · rw [Res.bind_eq_ok] at h
          obtain ⟨-, -, h⟩ := h
          exact (ctl_unstored h :)

theorem inn_unstored {s s' : Sys} (h : inn s = .ok s') : Unstored s s' := by
  unfold inn at h
  split at h
  · cases h; exact ⟨rfl, rfl, rfl⟩
  · rw [Res.check_bind_eq_ok, Res.bind_eq_ok] at h
    obtain ⟨-, c, -, h⟩ := h
    exact (ctl_unstored h :)
  · rw [Res.check_bind_eq_ok] at h
    exact (dataResp_unstored h.2 :)
  · rw [Res.check_bind_eq_ok, Res.check_bind_eq_ok] at h
    cases h.2.2
    exact ⟨rfl, rfl, rfl⟩

theorem input_unstored {g : Cfg} {s s' : Sys} {up : List StowData.Msg} (h : StowData.input g s up = .ok s') : Unstored s s' := by
  unfold StowData.input at h
  split at h
  · cases h; exact ⟨rfl, rfl, rfl⟩
  · rw [Res.bind_eq_ok] at h
    obtain ⟨r, -, h⟩ := h
    cases h
    exact ⟨rfl, rfl, rfl⟩
  · split at h
    · rw [Res.check_bind_eq_ok] at h
      cases h.2
      exact ⟨rfl, rfl, rfl⟩
    · cases h; exact ⟨rfl, rfl, rfl⟩
  · split at h
    · rw [Res.check_bind_eq_ok] at h
      cases h.2
      exact ⟨rfl, rfl, rfl⟩
    · split at h
      · cases h; exact ⟨rfl, rfl, rfl⟩
      · cases h; exact ⟨rfl, rfl, rfl⟩

theorem plain_unstored {g : Cfg} {s s' : Sys} {e : Ev} (he : isPlain e = true) (h : StowData.step g s e = some (.ok s')) : Unstored s s' := by
  cases e with
  | run => cases he
  | stored => cases he
  | metaStored => cases he
  | other => cases he
  | round sz c a b =>
    have h := Option.some.inj h
    unfold StowData.round at h
    rw [Res.bind_eq_ok] at h
    obtain ⟨t, h1, h2⟩ := h
    have k1 : Unstored s t := by
      split at h1
      · exact out_unstored h1
      · cases h1; exact ⟨rfl, rfl, rfl⟩
    split at h2
    · exact k1.trans (inn_unstored h2)
    · cases h2; exact k1
  | mtree =>
    simp only [StowData.step] at h
    split at h
    · have h := Option.some.inj h
      unfold mtree at h
      exact (ctl_unstored h :)
    · cases h
  | recv =>
    simp only [StowData.step] at h
    split at h
    · exact input_unstored (Option.some.inj h)
    · cases h
  | line =>
    simp only [StowData.step] at h
    split at h
    · have h := Option.some.inj h
      rw [Res.bind_eq_ok] at h
      obtain ⟨r, -, h⟩ := h
      cases h
      exact ⟨rfl, rfl, rfl⟩
    · cases h
  | eof =>
    simp only [StowData.step] at h
    split at h
    · cases Option.some.inj h
      exact ⟨rfl, rfl, rfl⟩
    · cases h

/-! ### One step -/

/-- What is assumed of the surroundings and of the job.  IDs have at least 24 digits, because the filter finds no shorter ones (C41); SHA256 is written in lower
case; what the machine of Model/StowData.lean calls the ID of contents and of metadata is what `store` makes of them. -/
structure Setting {σ : Type} (x : Ctx σ) (g : Cfg) (files : List Stow.Item) : Prop where
  zlib : Zlib x.D
  env : EnvOk x.env
  conf : Listed x.env x.conf
  qsort : ∀ l, (x.qs l).Perm l ∧ Filter.Sorted (x.qs l)
  buf : 66 ≤ x.buf
  long : 24 ≤ x.env.idSize
  low : ∀ d, ∀ c ∈ x.env.sha d, toLower c = c
  cfg : CfgOk g files
  hex : ∀ f ∈ files, ∀ c ∈ f.digest, isHex c = true
  n : g.n = x.env.idSize
  pfx : g.pfx = x.env.pfx
  sha : g.sha = x.env.sha
  mid : ∀ ref b, g.mid ref b = metaId x.env ref b

/-- What is assumed of one step: as in C62, and looking up the ID in the index before storing is safe (C03). -/
def JOk {σ : Type} (x : Ctx σ) (g : Cfg) (p : JSys) : JEv → Prop
  | .plain e => EvOk p.s e
  | .run => True
  | .stored _ pieces => pieces.flatten.length + x.env.max < 2 ^ 63 ∧ ∀ F, p.w.dir.sorted = some F → SeekSafe F (g.ident pieces.flatten)
  | .metaStored _ pieces => p.s.sv.job = none ∧ pieces.flatten.length + x.env.max < 2 ^ 63 ∧
      ∀ ref F, (p.s.mpend.map (·.1)) = some ref → p.w.dir.sorted = some F → SeekSafe F (metaId x.env ref pieces.flatten)
  | .other w' => Session x.env x.D x.conf p.w w'

/-- What is assumed of a run. -/
def JRunOk {σ : Type} (x : Ctx σ) (g : Cfg) (p : JSys) : List JEv → Prop
  | [] => True
  | e :: es => JOk x g p e ∧ ∀ p', jstep x g p e = some (.ok p') → StowData.InOrder g p'.s ∧ JRunOk x g p' es

theorem key_len {env : Env} {w : World} {ops : List IdxOp} {A : List Spec.Item} (ha : ArchInv env w ops A) {y : Spec.Item} (hy : y ∈ A) : y.entry.key.length = 24 := by
  have : y.entry ∈ (inserts ops).map Ins.entry := by rw [ha.entries]; exact List.mem_map.2 ⟨y, hy, rfl⟩
  obtain ⟨i, -, h⟩ := List.mem_map.1 this
  rw [← h]
  exact padKey_length 24 i.id

theorem map_lower {l : Bytes} (h : ∀ c ∈ l, toLower c = c) : l.map toLower = l := by
  conv => rhs; rw [← List.map_id l]
  exact List.map_congr_left h

theorem present_known {env : Env} {w : World} {ops : List IdxOp} {A : List Spec.Item} (ha : ArchInv env w ops A) (hf : A.length < 2 ^ 31) {id : Bytes}
    (h24 : 24 ≤ id.length) (hlow : ∀ c ∈ id, toLower c = c) (hp : Present A id) : knownOf w id = true := by
  obtain ⟨y, h1, -, h2, -⟩ := hp
  refine (knownOf_iff ha hf id).2 ⟨y, h1, ?_⟩
  unfold Matches at h2
  rw [List.isPrefixOf_iff_prefix, map_lower hlow] at h2
  have := key_len ha h1
  have h3 := List.prefix_iff_eq_take.1 h2
  rw [h3, List.length_take, Nat.min_eq_left h24, ← this, List.take_length]

theorem known_other {K0 K1 : Bytes → Bool} {a : Bytes} (h1 : ∀ x, K0 x = true → K1 x = true) (h2 : K1 a = true) :
    (fun x => (K0 x || x == a) || K1 x) = K1 := by
  funext x
  cases hk : K1 x with
  | true => simp
  | false =>
    have : K0 x = false := by
      cases h0 : K0 x with
      | false => rfl
      | true => rw [h1 x h0] at hk; cases hk
    have hx : (x == a) = false := by
      rw [beq_eq_false_iff_ne]
      rintro rfl
      rw [h2] at hk; cases hk
    rw [this, hx]; rfl

theorem known_more {K0 K1 : Bytes → Bool} (h1 : ∀ x, K0 x = true → K1 x = true) : (fun x => K0 x || K1 x) = K1 := by
  funext x
  cases hk : K1 x with
  | true => simp
  | false =>
    cases h0 : K0 x with
    | false => rfl
    | true => rw [h1 x h0] at hk; cases hk

theorem sentAll_mem {n : Nat} : ∀ {xs : List Stow.Item} {ts : List Bytes}, Stow.SentAll n xs ts → ∀ t ∈ ts, ∃ x ∈ xs, Stow.Sent n x t
  | [], [], _, t, ht => by cases ht
  | x :: xs, u :: ts, h, t, ht => by
    rcases List.mem_cons.1 ht with rfl | ht
    · exact ⟨x, by simp, h.1⟩
    · obtain ⟨y, h1, h2⟩ := sentAll_mem h.2 t ht
      exact ⟨y, by simp [h1], h2⟩
  | [], _ :: _, h, _, _ => h.elim
  | _ :: _, [], h, _, _ => h.elim

/-- The lines which a filter job gets are digests, whole or cut to the length of IDs. -/
theorem job_lines {σ : Type} {x : Ctx σ} {g : Cfg} {files : List Stow.Item} (hs : Setting x g files) {k0 : Bytes → Bool} {s : Sys} (h : DInv g files k0 s)
    {inp : List Bytes} {skip : Nat} (hj : s.sv.job = some ⟨inp, none, skip⟩) : ∀ l ∈ inp, g.n ≤ l.length ∧ l.length ≤ 64 ∧ ∀ c ∈ l, isHex c = true := by
  intro l hl
  obtain ⟨⟨R, A, B, hi⟩, -⟩ := h.base
  have hk := hi.job
  have hids := hi.ids
  simp only [StowData.filt, hj, Stow.jobIn, Stow.JobOk] at hk hids
  have hne : l ≠ [] := fun e => hk.2.2.2 (e ▸ hl)
  obtain ⟨y, h1, h2⟩ := sentAll_mem hids l (List.mem_append_left _ (List.mem_append_left _ hl))
  have hy : y ∈ StowData.items g files := by rw [hi.all]; simp [h1]
  have hd : ∀ c ∈ y.digest, isHex c = true := by
    unfold StowData.items at hy
    simp only [List.mem_append, List.mem_cons, List.not_mem_nil, or_false] at hy
    rcases hy with hy | rfl | rfl
    · exact hs.hex y hy
    · show ∀ c ∈ g.sha g.text, _
      rw [hs.sha]; exact (hs.env.sha _).2
    · intro c hc; cases hc
  obtain ⟨k1, k2, k3⟩ := h2.len hne
  refine ⟨k2, k3, fun c hc => ?_⟩
  rcases h2 with ⟨-, e⟩ | ⟨-, -, -, e⟩
  · exact absurd e hne
  · rw [e] at hc
    exact hd c (List.mem_of_mem_take hc)

theorem jobs_run_append {g : Cfg} : ∀ (es : List Ev) {s s' : Sys} {fs : List Ev}, StowData.run g s es = some (.ok s') → StowData.run g s (es ++ fs) = StowData.run g s' fs
  | [], s, s', fs, h => by cases h; rfl
  | e :: es, s, s', fs, h => by
    rw [StowData.run] at h
    rw [List.cons_append, StowData.run]
    cases hs : StowData.step g s e with
    | none => rw [hs] at h; cases h
    | some r =>
      rw [hs] at h
      cases r with
      | ok t => exact jobs_run_append es h
      | fail => cases h
      | ub => cases h

theorem runOk_append {g : Cfg} : ∀ (es : List Ev) {s s' : Sys} {fs : List Ev}, StowData.run g s es = some (.ok s') → RunOk g s es → RunOk g s' fs → RunOk g s (es ++ fs)
  | [], s, s', fs, h, _, hf => by cases h; exact hf
  | e :: es, s, s', fs, h, he, hf => by
    refine ⟨he.1, fun t ht => ⟨(he.2 t ht).1, ?_⟩⟩
    rw [StowData.run, ht] at h
    exact runOk_append es h (he.2 t ht).2 hf

/-- One step is some steps of the machine without the archive. -/
theorem jstep_sim {σ : Type} {x : Ctx σ} {g : Cfg} {files : List Stow.Item} (hs : Setting x g files) {p p' : JSys} {e : JEv} {ops : List IdxOp}
    {A : List Spec.Item} (ha : ArchInv x.env p.w ops A) (ho : JOk x g p e) (hj : jstep x g p e = some (.ok p')) :
    Session x.env x.D x.conf p.w p'.w ∧ ∃ is X, ArchInv x.env p'.w (ops ++ is) (A ++ X) ∧
      ((A ++ X).length < 2 ^ 31 → ∀ k0, DInv g files k0 p.s → p.s.known = knownOf p.w → StowData.InOrder g p'.s →
        ∃ es, RunOk g p.s es ∧ StowData.run g p.s es = some (.ok p'.s) ∧ p'.s.known = knownOf p'.w ∧
          (∀ c ∈ p'.s.stored, c ∈ p.s.stored ∨ Present (A ++ X) (g.ident c)) ∧
          (∀ m ∈ p'.s.metas, m ∈ p.s.metas ∨ Present (A ++ X) (g.mid m.1 m.2))) := by
  cases e with
  | plain e =>
    simp only [jstep] at hj
    split at hj
    · rename_i hpl
      obtain ⟨r, h1, h2⟩ := Option.map_eq_some_iff.1 hj
      rw [Res.bind_eq_ok] at h2
      obtain ⟨s', rfl, h3⟩ := h2
      cases h3
      refine ⟨.refl _, [], [], by simpa using ha, ?_⟩
      intro _ k0 hd hk hio
      have hu := plain_unstored hpl h1
      refine ⟨[e], ⟨ho, fun s2 h2 => ?_⟩, ?_, ?_, ?_, ?_⟩
      · rw [h1] at h2; cases h2; exact ⟨hio, trivial⟩
      · rw [StowData.run, h1]; rfl
      · show s'.known = _
        rw [hu.1]; exact hk
      · intro c hc; left; rw [← hu.2.1]; exact hc
      · intro c hc; left; rw [← hu.2.2]; exact hc
    · cases hj
  | run =>
    simp only [jstep] at hj
    split at hj
    · rename_i inp skip hjob
      have hj := Option.some.inj hj
      rw [Res.bind_eq_ok] at hj
      obtain ⟨ls, h1, h2⟩ := hj
      cases h2
      refine ⟨.refl _, [], [], by simpa using ha, ?_⟩
      intro hf k0 hd hk hio
      rw [List.append_nil] at hf
      have hin := job_lines hs hd hjob
      rw [hs.n] at hin
      have := filterJob_ok hs.env hs.qsort hs.buf ha hf hin
      rw [h1] at this
      cases this
      have hst : StowData.step g p.s .run = some (.ok { p.s with
          sv := { p.s.sv with job := some ⟨inp, some (missing x.env.idSize (knownOf p.w) inp), skip⟩ },
          log := p.s.log ++ inp.map (fun l => (l.take g.n, decide (l ∈ missing x.env.idSize (knownOf p.w) inp))) }) := by
        simp only [StowData.step, hjob, ← hk, ← hs.n]
        congr 4
        apply List.map_congr_left
        intro l hl
        congr 1
        unfold missing
        rw [Bool.eq_iff_iff]
        simp [hl]
      refine ⟨[.run], ⟨trivial, fun s2 h2 => ?_⟩, ?_, hk, fun c hc => .inl hc, fun c hc => .inl hc⟩
      · rw [hst] at h2; cases h2; exact ⟨hio, trivial⟩
      · rw [StowData.run, hst]; rfl
    · cases hj
  | stored fuel pieces =>
    simp only [jstep] at hj
    split at hj
    · cases hj
    · rename_i d hp
      split at hj
      · rename_i hpc
        obtain ⟨rfl, hpc⟩ := hpc
        have hj := Option.some.inj hj
        rw [Res.bind_eq_ok] at hj
        obtain ⟨⟨w', uri⟩, h1, h2⟩ := hj
        cases h2
        obtain ⟨r1, r2, is, X, r3, r4⟩ := storeJob_resource hs.zlib hs.env hs.conf ha hpc ho.1 h1
        have hid : g.ident pieces.flatten = (x.env.sha pieces.flatten).take x.env.idSize := by unfold StowData.Cfg.ident; rw [hs.sha, hs.n]
        refine ⟨r2, is, X, r3, ?_⟩
        intro hf k0 hd hk hio
        have hpr := r4 hf (fun F hF => by rw [← hid]; exact ho.2 F hF)
        rw [← hid] at hpr r1
        have hkn : knownOf w' (g.ident pieces.flatten) = true := by
          refine present_known r3 hf ?_ ?_ hpr
          · rw [hid, List.length_take, (hs.env.sha _).1]
            have := hs.env.idSize.2
            have := hs.long
            omega
          · intro c hc
            rw [hid] at hc
            exact hs.low _ c (List.mem_of_mem_take hc)
        have hst : StowData.step g p.s .stored = some (.ok { p.s with
            pend := none, stored := p.s.stored ++ [pieces.flatten], known := fun y => p.s.known y || y == g.ident pieces.flatten, down := p.s.down ++ [.data (g.pfx ++ g.ident pieces.flatten)] }) := by
          simp only [StowData.step, hp]
        refine ⟨[.stored, .other (knownOf w')], ⟨trivial, fun s2 h2 => ?_⟩, ?_, rfl, ?_, fun c hc => .inl hc⟩
        · rw [hst] at h2; cases h2
          exact ⟨hio, trivial, fun s3 h3 => by cases h3; exact ⟨hio, trivial⟩⟩
        · rw [StowData.run, hst]
          simp only [StowData.run, StowData.step]
          rw [hk, known_other (K0 := knownOf p.w) (K1 := knownOf w') (fun y hy => knownOf_mono ha r3 hf hy) hkn, hs.pfx, r1]
        · intro c hc
          rcases List.mem_append.1 hc with hc | hc
          · exact .inl hc
          · rw [List.mem_singleton.1 hc]; exact .inr hpr
      · cases hj
  | metaStored fuel pieces =>
    simp only [jstep] at hj
    split at hj
    · cases hj
    · rename_i ref b hp
      split at hj
      · rename_i hpc
        obtain ⟨rfl, hpc⟩ := hpc
        have hj := Option.some.inj hj
        rw [Res.bind_eq_ok] at hj
        obtain ⟨⟨w', uri⟩, h1, h2⟩ := hj
        cases h2
        obtain ⟨o1, o2, o3⟩ := ho
        obtain ⟨r1, r2, is, X, r3, r4⟩ := storeJob_metadata hs.zlib hs.env hs.conf ha hpc o2 h1
        refine ⟨r2, is, X, r3, ?_⟩
        intro hf k0 hd hk hio
        have hpr := r4 hf (fun F hF => o3 ref F (by rw [hp]; rfl) hF)
        obtain ⟨hkr, -⟩ := metaStored_inv hs.cfg hd hp o1
        have hst : StowData.step g p.s .metaStored = some (.ok { p.s with
            mpend := none, metas := p.s.metas ++ [(ref, pieces.flatten)], down := p.s.down ++ [.info (g.pfx ++ g.mid ref pieces.flatten)] }) := by
          simp only [StowData.step, hp, hkr, Res.check_true, Res.ok_bind]
        refine ⟨[.metaStored, .other (knownOf w')], ⟨o1, fun s2 h2 => ?_⟩, ?_, rfl, fun c hc => .inl hc, ?_⟩
        · rw [hst] at h2; cases h2
          exact ⟨hio, trivial, fun s3 h3 => by cases h3; exact ⟨hio, trivial⟩⟩
        · rw [StowData.run, hst]
          simp only [StowData.run, StowData.step]
          rw [hk, known_more (fun y hy => knownOf_mono ha r3 hf hy), hs.pfx, hs.mid, r1]
        · intro c hc
          rcases List.mem_append.1 hc with hc | hc
          · exact .inl hc
          · rw [List.mem_singleton.1 hc]; right; rw [hs.mid]; exact hpr
      · cases hj
  | other w' =>
    simp only [jstep, Option.some.injEq, Res.ok.injEq] at hj
    subst hj
    refine ⟨ho, ?_⟩
    obtain ⟨is, X, h1, -⟩ := later_inv hs.zlib hs.env (stores_later (C59_history hs.env hs.conf ho)) ha
    refine ⟨is, X, h1, ?_⟩
    intro hf k0 hd hk hio
    refine ⟨[.other (knownOf w')], ⟨trivial, fun s2 h2 => ?_⟩, ?_, rfl, fun c hc => .inl hc, fun c hc => .inl hc⟩
    · cases h2; exact ⟨hio, trivial⟩
    · simp only [StowData.run, StowData.step]
      rw [hk, known_more (fun y hy => knownOf_mono ha h1 hf hy)]

theorem session_trans {σ : Type} {env : Env} {D : Deflater σ} {cfg : List Config.Section} {a b c : World} (h1 : Session env D cfg a b)
    (h2 : Session env D cfg b c) : Session env D cfg a c := by
  induction h2 with
  | refl => exact h1
  | run _ k1 k2 ih => exact .run ih k1 k2
  | housekeep _ k1 k2 k3 ih => exact .housekeep ih k1 k2 k3
  | mksilo _ k1 ih => exact .mksilo ih k1
  | other _ k1 k2 ih => exact .other ih k1 k2

/-- A run is a run of the machine without the archive. -/
theorem jrun_sim {σ : Type} {x : Ctx σ} {g : Cfg} {files : List Stow.Item} (hs : Setting x g files) : ∀ (es : List JEv) {p p' : JSys} {ops : List IdxOp}
    {A : List Spec.Item}, ArchInv x.env p.w ops A → JRunOk x g p es → jrun x g p es = some (.ok p') →
    Session x.env x.D x.conf p.w p'.w ∧ ∃ is X, ArchInv x.env p'.w (ops ++ is) (A ++ X) ∧
      ((A ++ X).length < 2 ^ 31 → ∀ k0, DInv g files k0 p.s → p.s.known = knownOf p.w →
        ∃ fs, RunOk g p.s fs ∧ StowData.run g p.s fs = some (.ok p'.s) ∧ p'.s.known = knownOf p'.w ∧
          (∀ c ∈ p'.s.stored, c ∈ p.s.stored ∨ Present (A ++ X) (g.ident c)) ∧
          (∀ m ∈ p'.s.metas, m ∈ p.s.metas ∨ Present (A ++ X) (g.mid m.1 m.2)))
  | [], p, p', ops, A, ha, _, hr => by
    cases hr
    exact ⟨.refl _, [], [], by simpa using ha, fun _ k0 _ hk => ⟨[], trivial, rfl, hk, fun c hc => .inl hc, fun c hc => .inl hc⟩⟩
  | e :: es, p, p', ops, A, ha, ho, hr => by
    rw [jrun] at hr
    cases hj : jstep x g p e with
    | none => rw [hj] at hr; cases hr
    | some r =>
      rw [hj] at hr
      cases r with
      | fail => cases hr
      | ub => cases hr
      | ok p1 =>
        obtain ⟨o1, o2⟩ := ho.2 p1 hj
        obtain ⟨s1, is1, X1, a1, k1⟩ := jstep_sim hs ha ho.1 hj
        obtain ⟨s2, is2, X2, a2, k2⟩ := jrun_sim hs es a1 o2 hr
        refine ⟨session_trans s1 s2, is1 ++ is2, X1 ++ X2, by rw [← List.append_assoc, ← List.append_assoc]; exact a2, ?_⟩
        intro hf k0 hd hk
        rw [← List.append_assoc] at hf ⊢
        have hf1 : (A ++ X1).length < 2 ^ 31 := by
          rw [List.length_append] at hf; omega
        obtain ⟨f1, b1, b2, b3, b4, b5⟩ := k1 hf1 k0 hd hk o1
        obtain ⟨t, e1, hd1⟩ := run_inv hs.cfg f1 hd b1 b2
        cases e1
        obtain ⟨f2, c1, c2, c3, c4, c5⟩ := k2 hf k0 hd1 b3
        refine ⟨f1 ++ f2, runOk_append f1 b2 b1 c1, by rw [jobs_run_append f1 b2]; exact c2, c3, ?_, ?_⟩
        · intro c hc
          rcases c4 c hc with hc | hc
          · rcases b4 c hc with hc | hc
            · exact .inl hc
            · exact .inr (present_mono hc)
          · exact .inr hc
        · intro c hc
          rcases c5 c hc with hc | hc
          · rcases b5 c hc with hc | hc
            · exact .inl hc
            · exact .inr (present_mono hc)
          · exact .inr hc

end Verif.Props
