/-
Property C71: a stow job over pipes with limited room.
-/
import Verif.Model.StowPipe
import Verif.Model.Proto
import Verif.Props.StowDataExample

namespace Verif.Props
open Verif Stow StowData StowPipe StowExample

/-- `wireLen` is the length of what `proto_out` writes. -/
theorem wireLen_protoOut {cmd : Nat} {p b : Bytes} (h : Proto.protoOut cmd p = .ok b) : b.length = wireLen p := by
  unfold Proto.protoOut at h
  rw [Res.check_bind_eq_ok] at h
  obtain ⟨-, h⟩ := h
  unfold wireLen
  simp only at h
  split at h
  · rename_i h0; cases h; rw [if_pos h0]; rfl
  · rename_i h0
    rw [if_neg h0]
    split at h
    · rename_i h1; cases h; rw [if_pos h1, List.length_cons]; omega
    · rename_i h1
      rw [if_neg h1]
      split at h
      · rename_i h2; cases h; rw [if_pos h2, List.length_cons, List.length_cons]; omega
      · rename_i h2
        cases h
        rw [if_neg h2, List.length_cons, List.length_append]
        simp [beEnc]
        omega

namespace PipeExample

def pcfg : Cfg := { cfg with n := 64 }

def itemA : Item := fileA
def itemB : Item := fileB
def dA : Bytes := sha b!"alpha"
def dB : Bytes := sha b!"beta"

/-- The IDs of the first file and of `k` others have been sent; there are `r` others. -/
def asking (k r : Nat) : StowData.Sys where
  cl := { subj := List.replicate r itemB ++ [⟨false, [], sha b!"tree"⟩, ⟨false, [], []⟩], wait := itemA :: List.replicate k itemB, get := [], flushed := [],
          info := none, idSize := 64 }
  avail := 0
  taken := 0
  ack := []
  send := none
  changed := []
  closed := false
  enable := false
  gone := false
  sv := ⟨List.replicate k dB, some ⟨[dA], none, 1⟩⟩
  store := none
  pend := none
  mjob := none
  mpend := none
  up := []
  down := []
  known := fun _ => false
  log := []
  sent := []
  stored := []
  metas := []

/-- The first file is being sent, the server has sent the IDs of `j + 1` others, of which the client has got one; `r` are still to be sent. -/
def telling (c : Bytes) (lg : List (Bytes × Bool)) (m j r : Nat) : StowData.Sys where
  cl := { subj := [⟨false, [], sha b!"tree"⟩, ⟨false, [], []⟩], wait := List.replicate m itemB, get := [itemA, itemB], flushed := [],
          info := none, idSize := 64 }
  avail := 0
  taken := 1
  ack := [itemA]
  send := some c
  changed := []
  closed := false
  enable := true
  gone := false
  sv := ⟨[], some ⟨List.replicate (m + 1) dB, some (List.replicate r dB), 0⟩⟩
  store := none
  pend := none
  mjob := none
  mpend := none
  up := []
  down := List.replicate j (.filter dB)
  known := fun _ => false
  log := lg
  sent := [(itemA, c)]
  stored := []
  metas := []

theorem dA_len : dA.length = 64 := by decide
theorem dB_len : dB.length = 64 := by decide

theorem fileA_digest : fileA.digest = dA := rfl
theorem fileB_digest : fileB.digest = dB := rfl

theorem dA_ne : dA ≠ [] := by decide
theorem dB_ne : dB ≠ [] := by decide

theorem take_dA : itemA.digest.take 64 = dA := by decide
theorem take_dB : itemB.digest.take 64 = dB := by decide
theorem pcfg_tree : pcfg.sha pcfg.text = sha b!"tree" := rfl
theorem pcfg_n : pcfg.n = 64 := rfl
theorem pcfg_max : pcfg.max = 40960 := rfl
theorem first_job : startFilter 40960 [dA] = ([], ⟨[], some ⟨[dA], none, 1⟩⟩) := by decide

theorem start_asking (q : Pipes) (hl : q.low ≤ q.up) (r : Nat) (c : Bytes) :
    StowPipe.run pcfg q ⟨StowData.start pcfg (itemA :: List.replicate (r + 1) itemB) [] (fun _ => false), false⟩ [.other .mtree, .out c, .other .recv] =
      some (.ok ⟨asking 0 (r + 1), false⟩) := by
  have h1 : StowPipe.step pcfg q ⟨StowData.start pcfg (itemA :: List.replicate (r + 1) itemB) [] (fun _ => false), false⟩ (.other .mtree) =
      some (.ok ⟨{ StowData.start pcfg (itemA :: List.replicate (r + 1) itemB) [] (fun _ => false) with avail := 1, enable := true }, false⟩) := by
    simp [StowPipe.step, lift, StowData.step, StowData.start, clientWaits, load, StowData.mtree, ctl]
  have h2 : StowPipe.step pcfg q ⟨{ StowData.start pcfg (itemA :: List.replicate (r + 1) itemB) [] (fun _ => false) with avail := 1, enable := true }, false⟩ (.out c) =
      some (.ok ⟨{ asking 0 (r + 1) with sv := ⟨[], none⟩, up := [.filter dA] }, false⟩) := by
    simp [StowPipe.step, lift, StowData.step, StowData.start, clientWaits, canWrite, load, ctl, hl, StowData.round, out, sendIds, sendPiece, openNext, sendInfo, asking,
      take_dA, pcfg_tree]
  have h3 : StowPipe.step pcfg q ⟨{ asking 0 (r + 1) with sv := ⟨[], none⟩, up := [.filter dA] }, false⟩ (.other .recv) =
      some (.ok ⟨asking 0 (r + 1), false⟩) := by
    simp [StowPipe.step, lift, StowData.step, serverWaits, load, asking, StowData.input, Stow.input, dA_len, pcfg_n, pcfg_max, first_job]
  simp only [StowPipe.run, h1, h2, h3]

theorem rep_snoc {α : Type} (k : Nat) (x : α) : List.replicate k x ++ [x] = x :: List.replicate k x := by rw [← List.replicate_succ', List.replicate_succ]

theorem asking_one (q : Pipes) (hl : q.low ≤ q.up) (k r : Nat) (c : Bytes) :
    StowPipe.run pcfg q ⟨asking k (r + 1), false⟩ [.other .mtree, .out c, .other .recv] = some (.ok ⟨asking (k + 1) r, false⟩) := by
  have h1 : StowPipe.step pcfg q ⟨asking k (r + 1), false⟩ (.other .mtree) = some (.ok ⟨{ asking k (r + 1) with avail := 1, enable := true }, false⟩) := by
    simp [StowPipe.step, lift, StowData.step, asking, clientWaits, load, StowData.mtree, ctl]
  have h2 : StowPipe.step pcfg q ⟨{ asking k (r + 1) with avail := 1, enable := true }, false⟩ (.out c) =
      some (.ok ⟨{ asking (k + 1) r with sv := (asking k r).sv, up := [.filter dB] }, false⟩) := by
    simp [StowPipe.step, lift, StowData.step, clientWaits, canWrite, load, ctl, hl, StowData.round, out, sendIds, sendPiece, openNext, sendInfo, asking,
      take_dB, List.replicate_succ]
    exact rep_snoc _ _
  have h3 : StowPipe.step pcfg q ⟨{ asking (k + 1) r with sv := (asking k r).sv, up := [.filter dB] }, false⟩ (.other .recv) =
      some (.ok ⟨asking (k + 1) r, false⟩) := by
    simp [StowPipe.step, lift, StowData.step, serverWaits, load, asking, StowData.input, Stow.input, dB_len, pcfg_n, List.replicate_succ']
  simp only [StowPipe.run, h1, h2, h3]

theorem run_append (g : Cfg) (q : Pipes) : ∀ (es fs : List PEv) {p p' : PSys}, StowPipe.run g q p es = some (.ok p') → StowPipe.run g q p (es ++ fs) = StowPipe.run g q p' fs
  | [], fs, p, p', h => by cases h; rfl
  | e :: es, fs, p, p', h => by
    rw [List.cons_append, StowPipe.run]
    rw [StowPipe.run] at h
    cases hs : StowPipe.step g q p e with
    | none => rw [hs] at h; cases h
    | some r =>
      rw [hs] at h
      cases r with
      | ok p1 => exact run_append g q es fs h
      | fail => cases h
      | ub => cases h

/-- The client asks about all the files. -/
def askAll (c : Bytes) : Nat → List PEv
  | 0 => []
  | r + 1 => [.other .mtree, .out c, .other .recv] ++ askAll c r

theorem asking_all (q : Pipes) (hl : q.low ≤ q.up) (c : Bytes) : ∀ r k : Nat, StowPipe.run pcfg q ⟨asking k r, false⟩ (askAll c r) = some (.ok ⟨asking (k + r) 0, false⟩)
  | 0, k => rfl
  | r + 1, k => by
    rw [askAll, run_append pcfg q _ _ (asking_one q hl k r c), asking_all q hl c r (k + 1), show k + 1 + r = k + (r + 1) by omega]

theorem telling_one (q : Pipes) (c : Bytes) (lg : List (Bytes × Bool)) (m j r : Nat) (h : load (List.replicate j (.filter dB)) ≤ q.down) :
    StowPipe.step pcfg q ⟨telling c lg m j (r + 1), false⟩ (.other .line) = some (.ok ⟨telling c lg m (j + 1) r, false⟩) := by
  simp [StowPipe.step, lift, StowData.step, serverWaits, telling, h, filterLine, dB_len, pcfg_n, List.replicate_succ]
  exact rep_snoc _ _

theorem load_dB : ∀ j : Nat, load (List.replicate j (.filter dB)) = 66 * j
  | 0 => rfl
  | j + 1 => by
    rw [List.replicate_succ, load, load_dB j, show wireLen (payload (.filter dB)) = 66 by decide]
    omega

theorem telling_all (q : Pipes) (c : Bytes) (lg : List (Bytes × Bool)) (m : Nat) : ∀ n j r : Nat, 66 * (j + n) ≤ q.down + 66 →
    StowPipe.run pcfg q ⟨telling c lg m j (n + r), false⟩ (List.replicate n (.other .line)) = some (.ok ⟨telling c lg m (j + n) r, false⟩)
  | 0, j, r, _ => by simp [StowPipe.run]
  | n + 1, j, r, h => by
    rw [List.replicate_succ, StowPipe.run, show n + 1 + r = (n + r) + 1 by omega, telling_one q c lg m j (n + r) (by rw [load_dB]; omega)]
    simp only
    rw [telling_all q c lg m n (j + 1) r (by omega), show j + 1 + n = j + (n + 1) by omega]

theorem next_job (m : Nat) (hm : m + 1 ≤ 40960) : startFilter 40960 (List.replicate (m + 1) dB) = ([], ⟨[], some ⟨List.replicate (m + 1) dB, none, m + 1⟩⟩) := by
  have h1 : (List.replicate (m + 1) dB).takeWhile (fun f => f ≠ []) = List.replicate (m + 1) dB := by
    generalize m + 1 = n
    induction n with
    | zero => rfl
    | succ n ih => rw [List.replicate_succ, List.takeWhile_cons_of_pos (by decide), ih]
  have h2 : (List.replicate (m + 1) dB).take 40960 = List.replicate (m + 1) dB := List.take_of_length_le (by simpa using hm)
  have h3 : ∀ (d : Bytes) (q : List Bytes), d ≠ [] → startFilter 40960 (d :: q) =
      ([], ⟨(d :: q).drop (((d :: q).takeWhile (fun f => f ≠ [])).take 40960).length, some ⟨((d :: q).takeWhile (fun f => f ≠ [])).take 40960, none,
        (((d :: q).takeWhile (fun f => f ≠ [])).take 40960).length⟩⟩) := by
    intro d q hd
    cases d with
    | nil => exact absurd rfl hd
    | cons a d => rfl
  rw [List.replicate_succ, h3 dB _ dB_ne, ← List.replicate_succ, h1, h2]
  simp

/-- From the last question to the time when the first file is sent. -/
def turn (c : Bytes) : List PEv := [.other .run, .other .line, .inn, .out c, .other .eof, .other .run, .other .line, .inn]

theorem asking_telling (q : Pipes) (hl : q.low ≤ q.up) (m : Nat) (hm : m + 1 ≤ 40960) (c : Bytes) :
    ∃ lg, StowPipe.run pcfg q ⟨asking (m + 1) 0, false⟩ (turn c) = some (.ok ⟨telling c lg m 0 m, false⟩) := by
  have tA : dA.take 64 = dA := by decide
  have tA0 : (dA ++ [0]).take 64 = dA := by decide
  have tB : dB.take 64 = dB := by decide
  have tB0 : (dB ++ [0]).take 64 = dB := by decide
  have iA : (itemA.digest ++ [0]).take 64 = dA := by decide
  have iB : (itemB.digest ++ [0]).take 64 = dB := by decide
  have lA : itemA.digest.length = 64 := by decide
  have lB : itemB.digest.length = 64 := by decide
  have fA : itemA.isFile = true := rfl
  have nA : dA ≠ [] := by decide
  have nB : dB ≠ [] := by decide
  have h1 : StowPipe.step pcfg q ⟨asking (m + 1) 0, false⟩ (.other .run) =
      some (.ok ⟨{ asking (m + 1) 0 with sv := ⟨List.replicate (m + 1) dB, some ⟨[dA], some [dA], 1⟩⟩, log := [(dA, true)] }, false⟩) := by
    simp [StowPipe.step, lift, StowData.step, asking, missing, pcfg_n, tA]
  have h2 : StowPipe.step pcfg q ⟨{ asking (m + 1) 0 with sv := ⟨List.replicate (m + 1) dB, some ⟨[dA], some [dA], 1⟩⟩, log := [(dA, true)] }, false⟩ (.other .line) =
      some (.ok ⟨{ asking (m + 1) 0 with sv := ⟨List.replicate (m + 1) dB, some ⟨[dA], some [], 0⟩⟩, log := [(dA, true)], down := [.filter dA] }, false⟩) := by
    simp [StowPipe.step, lift, StowData.step, asking, serverWaits, load, pcfg_n, tA0, filterLine, dA_len]
  have h3 : StowPipe.step pcfg q ⟨{ asking (m + 1) 0 with sv := ⟨List.replicate (m + 1) dB, some ⟨[dA], some [], 0⟩⟩, log := [(dA, true)], down := [.filter dA] }, false⟩ .inn =
      some (.ok ⟨{ asking (m + 1) 0 with
        cl := { (asking (m + 1) 0).cl with wait := List.replicate (m + 1) itemB, get := [itemA] }, enable := true,
        sv := ⟨List.replicate (m + 1) dB, some ⟨[dA], some [], 0⟩⟩, log := [(dA, true)] }, false⟩) := by
    simp [StowPipe.step, lift, StowData.step, asking, clientWaits, canWrite, load, StowData.round, StowData.inn, dA_len, filterResp, flushTo, iA, lA, nA, ctl]
  have h4 : StowPipe.step pcfg q ⟨{ asking (m + 1) 0 with
        cl := { (asking (m + 1) 0).cl with wait := List.replicate (m + 1) itemB, get := [itemA] }, enable := true,
        sv := ⟨List.replicate (m + 1) dB, some ⟨[dA], some [], 0⟩⟩, log := [(dA, true)] }, false⟩ (.out c) =
      some (.ok ⟨{ asking (m + 1) 0 with
        cl := { (asking (m + 1) 0).cl with wait := List.replicate (m + 1) itemB, get := [itemA] }, taken := 1, ack := [itemA], send := some c,
        sv := ⟨List.replicate (m + 1) dB, some ⟨[dA], some [], 0⟩⟩, log := [(dA, true)], sent := [(itemA, c)] }, false⟩) := by
    simp [StowPipe.step, lift, StowData.step, asking, clientWaits, canWrite, load, StowData.round, out, sendIds, sendPiece, openNext, sendInfo, ctl, fA, hl]
  have h5 : StowPipe.step pcfg q ⟨{ asking (m + 1) 0 with
        cl := { (asking (m + 1) 0).cl with wait := List.replicate (m + 1) itemB, get := [itemA] }, taken := 1, ack := [itemA], send := some c,
        sv := ⟨List.replicate (m + 1) dB, some ⟨[dA], some [], 0⟩⟩, log := [(dA, true)], sent := [(itemA, c)] }, false⟩ (.other .eof) =
      some (.ok ⟨{ asking (m + 1) 0 with
        cl := { (asking (m + 1) 0).cl with wait := List.replicate (m + 1) itemB, get := [itemA] }, taken := 1, ack := [itemA], send := some c,
        sv := ⟨[], some ⟨List.replicate (m + 1) dB, none, m + 1⟩⟩, log := [(dA, true)], sent := [(itemA, c)] }, false⟩) := by
    simp [StowPipe.step, lift, StowData.step, asking, serverWaits, load, filterEnd, pcfg_max, next_job m hm]
  have h6 : StowPipe.step pcfg q ⟨{ asking (m + 1) 0 with
        cl := { (asking (m + 1) 0).cl with wait := List.replicate (m + 1) itemB, get := [itemA] }, taken := 1, ack := [itemA], send := some c,
        sv := ⟨[], some ⟨List.replicate (m + 1) dB, none, m + 1⟩⟩, log := [(dA, true)], sent := [(itemA, c)] }, false⟩ (.other .run) =
      some (.ok ⟨{ asking (m + 1) 0 with
        cl := { (asking (m + 1) 0).cl with wait := List.replicate (m + 1) itemB, get := [itemA] }, taken := 1, ack := [itemA], send := some c,
        sv := ⟨[], some ⟨List.replicate (m + 1) dB, some (List.replicate (m + 1) dB), m + 1⟩⟩, log := (dA, true) :: List.replicate (m + 1) (dB, true),
        sent := [(itemA, c)] }, false⟩) := by
    simp [StowPipe.step, lift, StowData.step, asking, missing, pcfg_n, tB]
  have h7 : StowPipe.step pcfg q ⟨{ asking (m + 1) 0 with
        cl := { (asking (m + 1) 0).cl with wait := List.replicate (m + 1) itemB, get := [itemA] }, taken := 1, ack := [itemA], send := some c,
        sv := ⟨[], some ⟨List.replicate (m + 1) dB, some (List.replicate (m + 1) dB), m + 1⟩⟩, log := (dA, true) :: List.replicate (m + 1) (dB, true),
        sent := [(itemA, c)] }, false⟩ (.other .line) =
      some (.ok ⟨{ asking (m + 1) 0 with
        cl := { (asking (m + 1) 0).cl with wait := List.replicate (m + 1) itemB, get := [itemA] }, taken := 1, ack := [itemA], send := some c,
        sv := ⟨[], some ⟨List.replicate (m + 1) dB, some (List.replicate m dB), 0⟩⟩, log := (dA, true) :: List.replicate (m + 1) (dB, true),
        sent := [(itemA, c)], down := [.filter dB] }, false⟩) := by
    simp [StowPipe.step, lift, StowData.step, asking, serverWaits, load, pcfg_n, tB0, filterLine, dB_len, List.replicate_succ]
  have h8 : StowPipe.step pcfg q ⟨{ asking (m + 1) 0 with
        cl := { (asking (m + 1) 0).cl with wait := List.replicate (m + 1) itemB, get := [itemA] }, taken := 1, ack := [itemA], send := some c,
        sv := ⟨[], some ⟨List.replicate (m + 1) dB, some (List.replicate m dB), 0⟩⟩, log := (dA, true) :: List.replicate (m + 1) (dB, true),
        sent := [(itemA, c)], down := [.filter dB] }, false⟩ .inn =
      some (.ok ⟨telling c ((dA, true) :: List.replicate (m + 1) (dB, true)) m 0 m, false⟩) := by
    simp [StowPipe.step, lift, StowData.step, asking, telling, clientWaits, canWrite, load, StowData.round, StowData.inn, dB_len, filterResp, flushTo, iB, lB, nB, ctl,
      List.replicate_succ]
  refine ⟨(dA, true) :: List.replicate (m + 1) (dB, true), ?_⟩
  simp only [turn, StowPipe.run, h1, h2, h3, h4, h5, h6, h7, h8]

theorem telling_stuck (q : Pipes) (hl : q.low ≤ q.up) (hu : q.up ≤ bufLen) {c : Bytes} (hc : c.length = bufLen) (lg : List (Bytes × Bool)) (m j r : Nat) (hd : q.down < 66 * j) :
    ∃ p, StowPipe.run pcfg q ⟨telling c lg m j r, false⟩ [.out c] = some (.ok p) ∧ clientWaits q p.s ∧ serverWaits q p.s ∧ p.s.gone = false ∧ p.s.stored = [] := by
  have ht : c.take bufLen = c := List.take_of_length_le (by omega)
  have hne : c ≠ [] := by
    intro k
    rw [k] at hc
    cases hc
  have h1 : StowPipe.step pcfg q ⟨telling c lg m j r, false⟩ (.out c) =
      some (.ok ⟨{ telling c lg m j r with up := [.data c], send := some (c.drop bufLen) }, (telling c lg m j r).down ≠ []⟩) := by
    simp [StowPipe.step, lift, StowData.step, telling, clientWaits, canWrite, load, StowData.round, out, sendIds, sendPiece, hl, ht, hne]
  refine ⟨_, by simp only [StowPipe.run, h1]; rfl, ?_, ?_, rfl, rfl⟩
  · show q.up < load [.data c]
    have : wireLen c = 5 + c.length := by
      unfold wireLen
      rw [hc, if_neg (by decide), if_neg (by decide), if_neg (by decide)]
    rw [load, payload, this, hc, load]
    omega
  · show q.down < load (List.replicate j (.filter dB))
    rw [load_dB]
    exact hd

end PipeExample

open PipeExample

/-- Once both wait, nothing that has to do with the job happens any more. -/
theorem waiting_step {g : Cfg} {q : Pipes} {p : PSys} {e : PEv} {r : Res PSys} (hc : clientWaits q p.s) (hs : serverWaits q p.s) (h : StowPipe.step g q p e = some r) :
    ∃ p', r = .ok p' ∧ p'.s.up = p.s.up ∧ p'.s.down = p.s.down ∧ p'.s.gone = p.s.gone ∧ p'.s.stored = p.s.stored ∧ p'.s.metas = p.s.metas := by
  cases e with
  | out c => rw [StowPipe.step, if_neg (fun k => k.2.1 hc)] at h; cases h
  | inn => rw [StowPipe.step, if_neg (fun k => k.1 hc)] at h; cases h
  | other e =>
    cases e with
    | round _ _ _ _ => cases h
    | mtree => simp only [StowPipe.step, hc, not_true, and_false, if_false] at h; cases h
    | recv => simp only [StowPipe.step, hs, not_true, if_false] at h; cases h
    | line => simp only [StowPipe.step, hs, not_true, if_false] at h; cases h
    | eof => simp only [StowPipe.step, hs, not_true, if_false] at h; cases h
    | stored => simp only [StowPipe.step, hs, not_true, if_false] at h; cases h
    | metaStored => simp only [StowPipe.step, hs, not_true, if_false] at h; cases h
    | other ids => cases h; exact ⟨_, rfl, rfl, rfl, rfl, rfl, rfl⟩
    | run =>
      simp only [StowPipe.step, StowData.step] at h
      split at h
      · cases h; exact ⟨_, rfl, rfl, rfl, rfl, rfl, rfl⟩
      · cases h

/-- C71: if at some time both client and server wait in write(2), they do so for ever. -/
theorem C71_waiting {g : Cfg} {q : Pipes} : ∀ (es : List PEv) {p : PSys} {r : Res PSys}, clientWaits q p.s → serverWaits q p.s → StowPipe.run g q p es = some r →
    ∃ p', r = .ok p' ∧ clientWaits q p'.s ∧ serverWaits q p'.s ∧ p'.s.gone = p.s.gone ∧ p'.s.stored = p.s.stored ∧ p'.s.metas = p.s.metas
  | [], p, r, hc, hs, h => by cases h; exact ⟨p, rfl, hc, hs, rfl, rfl, rfl⟩
  | e :: es, p, r, hc, hs, h => by
    rw [StowPipe.run] at h
    cases he : StowPipe.step g q p e with
    | none => rw [he] at h; cases h
    | some r1 =>
      rw [he] at h
      obtain ⟨p1, rfl, h1, h2, h3, h4, h5⟩ := waiting_step hc hs he
      have hc1 : clientWaits q p1.s := by unfold clientWaits at hc ⊢; rw [h1]; exact hc
      have hs1 : serverWaits q p1.s := by unfold serverWaits at hs ⊢; rw [h2]; exact hs
      obtain ⟨p', e1, e2, e3, e4, e5, e6⟩ := C71_waiting es hc1 hs1 h
      exact ⟨p', e1, e2, e3, e4.trans h3, e5.trans h4, e6.trans h5⟩

/-- C71 is wrong, for any two pipes of the usual sizes (up to 2 MiB towards the client, and not more than 128 KiB towards the server): there are files, none of
which is in the archive, so that client and server can come to wait for each other for ever.  The client reads one response in a round, and writes a
piece of 128 KiB first; meanwhile the server writes a response for each of the other files. -/
theorem C71_counterexample_deadlock (q : Pipes) (hl : q.low ≤ q.up) (hu : q.up ≤ 131072) (hd : q.down ≤ 2097152) :
    ∃ files c es p, CfgOk pcfg files ∧ files.head? = some ⟨true, b!"a", pcfg.sha c⟩ ∧
      StowPipe.run pcfg q ⟨StowData.start pcfg files [] (fun _ => false), false⟩ es = some (.ok p) ∧
      p.s.gone = false ∧ p.s.stored = [] ∧
      ∀ es' r, StowPipe.run pcfg q p es' = some r → ∃ p', r = .ok p' ∧ p'.s.gone = false ∧ p'.s.stored = [] ∧ p'.s.metas = p.s.metas := by
  have hA : ∀ n : Nat, pcfg.sha (b!"alpha" ++ List.replicate n 0) = dA := by
    intro n
    show (((b!"alpha" ++ List.replicate n 0).filter _) ++ List.replicate 64 48).take 64 = _
    rw [List.filter_append, List.filter_replicate, if_neg (by decide), List.append_nil]
    rfl
  have hlen : (b!"alpha" ++ List.replicate 131067 0 : Bytes).length = bufLen := by
    rw [List.length_append, List.length_replicate]
    rfl
  generalize hc : (b!"alpha" ++ List.replicate 131067 0 : Bytes) = c at hlen
  have hsha : pcfg.sha c = dA := by rw [← hc]; exact hA _
  obtain ⟨m, hm1, hm2⟩ : ∃ m, q.down < 66 * m ∧ 66 * m ≤ q.down + 66 := ⟨q.down / 66 + 1, by omega, by omega⟩
  have hm3 : m + 1 ≤ 40960 := by omega
  obtain ⟨lg, ht⟩ := asking_telling q hl m hm3 c
  obtain ⟨p, hp, w1, w2, g1, g2⟩ := telling_stuck q hl hu hlen lg m m 0 hm1
  have r1 := start_asking q hl m c
  have r2 := asking_all q hl c (m + 1) 0
  rw [Nat.zero_add] at r2
  have r3 := telling_all q c lg m m 0 0 (by omega)
  rw [Nat.zero_add, Nat.add_zero] at r3
  refine ⟨itemA :: List.replicate (m + 1) itemB, c,
    [.other .mtree, .out c, .other .recv] ++ (askAll c (m + 1) ++ (turn c ++ (List.replicate m (.other .line) ++ [.out c]))), p, ?_, ?_, ?_, g1, g2, ?_⟩
  · refine { cfg_ok with n1 := by decide, n2 := by decide, files := ?_ }
    intro x hx
    rcases List.mem_cons.1 hx with rfl | hx
    · exact ⟨rfl, dA_len⟩
    · rw [List.eq_of_mem_replicate hx]; exact ⟨rfl, dB_len⟩
  · rw [hsha]; rfl
  · rw [run_append pcfg q _ _ r1, run_append pcfg q _ _ r2, run_append pcfg q _ _ ht, run_append pcfg q _ _ r3, hp]
  · intro es' r h
    obtain ⟨p', e1, -, -, e4, e5, e6⟩ := C71_waiting es' w1 w2 h
    exact ⟨p', e1, e4.trans g1, e5.trans g2, e6⟩

end Verif.Props
