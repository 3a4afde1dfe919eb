/-
Lemmas for property C62: every step leaves less work.
-/
import Verif.Proofs.StowDataLive

namespace Verif.StowData
open Verif Stow Props
open _root_.Verif.Rsilo (cstr)

/-- `m` is the work for the metadata, `l` a bound for the lengths of the files. -/
structure Size where
  m : Nat
  l : Nat

def Size.g (z : Size) : Nat := 2 * z.l + z.m + 6
def Size.k (z : Size) : Nat := 2 * z.l + 2 * z.m + 8

def upW (z : Size) : List Msg → Nat
  | [] => 0
  | .filter _ :: l => upW z l
  | .data p :: l => (if p = [] then z.m + 4 else 1) + upW z l
  | .info _ :: l => 4 + upW z l

def downW (z : Size) : List Msg → Nat
  | [] => 0
  | .filter _ :: l => downW z l
  | .data _ :: l => z.m + 2 + downW z l
  | .info _ :: l => 2 + downW z l

def sendW (z : Size) : Option Bytes → Nat
  | none => 0
  | some r => 2 * r.length + z.m + 5

def optW {α : Type} (k : Nat) : Option α → Nat
  | none => 0
  | some _ => k

/-- The work left. -/
def W (z : Size) (s : Sys) : Nat :=
  z.k * work (filt s) + 2 * (s.cl.subj.length - s.avail) + z.g * (s.cl.get.length - s.taken) + sendW z s.send + upW z s.up + optW (z.m + 3) s.pend +
    downW z s.down + optW 3 s.mpend + optW z.m s.cl.info + (if s.enable then 1 else 0)

theorem upW_append (z : Size) : ∀ a b : List Msg, upW z (a ++ b) = upW z a + upW z b
  | [], b => by simp [upW]
  | .filter p :: a, b => by rw [List.cons_append, upW, upW, upW_append z a b]
  | .data p :: a, b => by rw [List.cons_append, upW, upW, upW_append z a b]; omega
  | .info p :: a, b => by rw [List.cons_append, upW, upW, upW_append z a b]; omega

theorem downW_append (z : Size) : ∀ a b : List Msg, downW z (a ++ b) = downW z a + downW z b
  | [], b => by simp [downW]
  | .filter p :: a, b => by rw [List.cons_append, downW, downW, downW_append z a b]
  | .data p :: a, b => by rw [List.cons_append, downW, downW, downW_append z a b]; omega
  | .info p :: a, b => by rw [List.cons_append, downW, downW, downW_append z a b]; omega

theorem upW_info (z : Size) : ∀ l : List Bytes, upW z (l.map .info) = 4 * l.length
  | [] => rfl
  | p :: l => by rw [List.map_cons, upW, upW_info z l, List.length_cons]; omega

theorem downW_filter (z : Size) : ∀ l : List Bytes, downW z (l.map .filter) = 0
  | [] => rfl
  | p :: l => by rw [List.map_cons, downW, downW_filter z l]

theorem k_less (z : Size) {a b : Nat} (h : a < b) : z.k * a + z.k ≤ z.k * b := by
  have := Nat.mul_le_mul_left z.k (show a + 1 ≤ b from h)
  rwa [Nat.mul_add, Nat.mul_one] at this

theorem k_pos (z : Size) : z.k = z.g + z.m + 2 := by simp only [Size.k, Size.g]; omega

theorem sendIds_work (z : Size) {g : Cfg} (hmax : 0 < g.max) : ∀ (k : Nat) (s : Sys), W z (sendIds k s) ≤ W z s ∧ (0 < k → s.cl.subj ≠ [] → W z (sendIds k s) < W z s)
  | 0, s => ⟨Nat.le_refl _, fun h => absurd h (by omega)⟩
  | k + 1, s => by
    cases hs : s.cl.subj with
    | nil =>
      rw [sendIds, hs]
      exact ⟨Nat.le_refl _, fun _ h => absurd rfl h⟩
    | cons cp rest =>
      rw [sendIds_one k s hs]
      have h1 := (sendIds_work z hmax k { s with cl := { s.cl with subj := rest, wait := s.cl.wait ++ [cp] }, avail := s.avail - 1, up := s.up ++ [.filter (cp.digest.take s.cl.idSize)] }).1
      have hstep : Stow.step g.n g.max (filt s) .send = some (.ok (filt { s with cl := { s.cl with subj := rest, wait := s.cl.wait ++ [cp] }, avail := s.avail - 1, up := s.up ++ [.filter (cp.digest.take s.cl.idSize)] })) := by
        simp only [Stow.step, filt, hs, fMsgs_append, fMsgs_f, fMsgs_nil]
      have h2 := k_less z (work_step hmax (by simp) hstep)
      have h3 := k_pos z
      have h4 : W z { s with cl := { s.cl with subj := rest, wait := s.cl.wait ++ [cp] }, avail := s.avail - 1, up := s.up ++ [.filter (cp.digest.take s.cl.idSize)] } < W z s := by
        dsimp only at h2
        simp only [W, upW_append, upW, hs, List.length_cons]
        omega
      exact ⟨by omega, fun _ _ => by omega⟩

theorem sendPiece_work (z : Size) {sz : Nat} (hsz : 0 < sz) (s : Sys) : W z (sendPiece sz s).1 ≤ W z s ∧ ((sendPiece sz s).2 = false → W z (sendPiece sz s).1 < W z s) := by
  unfold sendPiece
  cases hs : s.send with
  | none => exact ⟨Nat.le_refl _, fun h => (by cases h)⟩
  | some r =>
    simp only
    have hf : ∀ t : Sys, t.cl = s.cl → t.sv = s.sv → fMsgs t.up = fMsgs s.up → t.down = s.down → work (filt t) = work (filt s) := by
      intro t e1 e2 e3 e4
      simp only [work, filt, e1, e2, e3, e4]
    split
    · rename_i hr
      have hlen : (r.drop sz).length + 1 ≤ r.length := by
        rw [List.length_drop]
        have : r ≠ [] := by rintro rfl; simp at hr
        have := List.length_pos_iff.2 this
        omega
      have key : W z { s with up := s.up ++ [Msg.data (r.take sz)], send := some (r.drop sz) } < W z s := by
        simp only [W]
        rw [hf { s with up := s.up ++ [Msg.data (r.take sz)], send := some (r.drop sz) } rfl rfl (by simp) rfl]
        simp only [upW_append, upW, if_neg hr, hs, sendW]
        omega
      exact ⟨Nat.le_of_lt key, fun _ => key⟩
    · rename_i hr
      have hr0 : r.take sz = [] := Decidable.not_not.1 hr
      have key : W z { s with up := s.up ++ [Msg.data (r.take sz)], send := none } < W z s := by
        simp only [W]
        rw [hf { s with up := s.up ++ [Msg.data (r.take sz)], send := none } rfl rfl (by simp) rfl]
        simp only [upW_append, upW, if_pos hr0, hs, sendW]
        omega
      exact ⟨Nat.le_of_lt key, fun h => (by cases h)⟩

theorem openNext_work (z : Size) {g : Cfg} (ht : g.text.length ≤ z.l) {c : Bytes} (hc : c.length ≤ z.l) {s : Sys} (hs : s.send = none) :
    W z (openNext g c s).1 ≤ W z s ∧ ((openNext g c s).2 = false → W z (openNext g c s).1 < W z s) := by
  unfold openNext
  cases hd : s.cl.get.drop s.taken with
  | nil => exact ⟨Nat.le_refl _, fun h => (by cases h)⟩
  | cons cp l =>
    obtain ⟨hk, -⟩ := drop_cons hd
    have key : ∀ b : Bytes, b.length ≤ z.l → W z { s with taken := s.taken + 1, ack := s.ack ++ [cp], send := some b, sent := s.sent ++ [(cp, b)] } < W z s := by
      intro b hb
      have h1 : s.cl.get.length - s.taken = (s.cl.get.length - (s.taken + 1)) + 1 := by omega
      have h2 : z.g * (s.cl.get.length - s.taken) = z.g * (s.cl.get.length - (s.taken + 1)) + z.g := by rw [h1, Nat.mul_add, Nat.mul_one]
      have h3 : z.g = 2 * z.l + z.m + 6 := rfl
      simp only [W, hs, sendW]
      rw [h2]
      simp only [filt]
      omega
    simp only
    split
    · exact ⟨Nat.le_of_lt (key _ ht), fun _ => key _ ht⟩
    · exact ⟨Nat.le_of_lt (key _ hc), fun h => (by cases h)⟩

theorem pieces_len (k : Nat) : ∀ (fuel : Nat) (b : Bytes), (pieces k fuel b).length ≤ fuel
  | 0, b => by simp [pieces]
  | fuel + 1, b => by
    rw [pieces]
    split
    · simp
    · rw [List.length_cons]; have := pieces_len k fuel (b.drop (k + 1)); omega

theorem metaMsgs_len (g : Cfg) (d c : Bytes) : (metaMsgs g d c).length ≤ c.length + 4 := by
  unfold metaMsgs
  simp only
  split
  · have := pieces_len (g.bufsiz - 1) (c.drop 2).length (c.drop 2)
    rw [List.length_drop] at this
    simp only [List.length_cons, List.length_append, List.length_nil, List.length_drop]
    omega
  · simp

theorem sendInfo_work (z : Size) {g : Cfg} {s s' : Sys} (hz : 4 * (s.changed.length + 4) ≤ z.m) (h : sendInfo g s = .ok s') : W z s' ≤ W z s ∧ s'.enable = s.enable := by
  unfold sendInfo at h
  split at h
  · cases h; exact ⟨Nat.le_refl _, rfl⟩
  · rename_i cp hi
    obtain ⟨-, -, h⟩ := Res.bind_eq_ok.1 h
    cases h
    refine ⟨?_, rfl⟩
    have := metaMsgs_len g cp.digest s.changed
    simp only [W, upW_append, upW_info, hi, optW, filt, fMsgs_append, fMsgs_info, List.append_nil, work]
    omega

theorem ctl_work (z : Size) {s s' : Sys} (h : ctl false s = .ok s') (hen : s.enable = true) : W z s' < W z s := by
  unfold ctl at h
  obtain ⟨-, -, h⟩ := Res.bind_eq_ok.1 h
  cases h
  simp only [W, hen, filt, if_true, Bool.false_eq_true, if_false]
  omega

theorem openNext_enable (g : Cfg) (c : Bytes) (s : Sys) : (openNext g c s).1.enable = s.enable ∧ (openNext g c s).1.changed = s.changed := by
  unfold openNext
  split
  · exact ⟨rfl, rfl⟩
  · simp only
    split <;> exact ⟨rfl, rfl⟩

theorem sendPiece_enable (sz : Nat) (s : Sys) : (sendPiece sz s).1.enable = s.enable ∧ (sendPiece sz s).1.avail = s.avail ∧ (sendPiece sz s).1.changed = s.changed := by
  unfold sendPiece
  split
  · exact ⟨rfl, rfl, rfl⟩
  · simp only
    split <;> exact ⟨rfl, rfl, rfl⟩

theorem sendIds_changed : ∀ (k : Nat) (s : Sys), (sendIds k s).changed = s.changed
  | 0, _ => rfl
  | k + 1, s => by
    rw [sendIds]
    split
    · rfl
    · exact sendIds_changed k _

theorem out_work (z : Size) {g : Cfg} {files : List Item} (hg : CfgOk g files) {k0 : Bytes → Bool} {s s' : Sys} (h : DInv g files k0 s) (hen : s.enable = true)
    (ht : g.text.length ≤ z.l) (hz : 4 * (s.changed.length + 4) ≤ z.m)
    {sz : Nat} (hsz : 0 < sz) {c : Bytes} (hcl : c.length ≤ z.l) (ho : out g sz c s = .ok s') : W z s' < W z s := by
  obtain ⟨w1, w2⟩ := sendIds_work z hg.max1 (min 10 s.avail) s
  obtain ⟨d1, d2, -⟩ := sendIds_inv hg (min 10 s.avail) s (by omega) h
  obtain ⟨w3, w4⟩ := sendPiece_work z hsz (sendIds (min 10 s.avail) s)
  obtain ⟨p1, p2, -, p4⟩ := sendPiece_inv d1 hsz
  have e1 := (sendIds_same (min 10 s.avail) s).2.2.2.2.2.1
  obtain ⟨e2, -, e5⟩ := sendPiece_enable sz (sendIds (min 10 s.avail) s)
  have e6 := sendIds_changed (min 10 s.avail) s
  unfold out at ho
  simp only at ho
  split at ho
  · rename_i h2
    cases ho
    have := w4 h2
    omega
  · rename_i h2
    have h2' : (sendPiece sz (sendIds (min 10 s.avail) s)).2 = true := by simpa using h2
    split at ho
    · rename_i h3
      cases ho
      have hav : 0 < s.avail := by rw [p2, d2] at h3; omega
      have hsub : s.cl.subj ≠ [] := by
        intro k
        have := h.av
        rw [k] at this
        simp only [List.length_nil] at this
        omega
      have := w2 (by omega) hsub
      omega
    · obtain ⟨w5, w6⟩ := openNext_work z ht hcl (s := (sendPiece sz (sendIds (min 10 s.avail) s)).1) (p4 h2')
      obtain ⟨e3, e7⟩ := openNext_enable g c (sendPiece sz (sendIds (min 10 s.avail) s)).1
      split at ho
      · rename_i h4
        cases ho
        have := w6 h4
        omega
      · obtain ⟨t, ht', ho⟩ := Res.bind_eq_ok.1 ho
        obtain ⟨w7, e4⟩ := sendInfo_work z (by rw [e7, e5, e6]; exact hz) ht'
        have := ctl_work z ho (by rw [e4, e3, e2, e1, hen])
        omega

theorem inn_work (z : Size) {g : Cfg} (hmax : 0 < g.max) {s s' : Sys} (hd : s.down ≠ []) (hi : inn s = .ok s') : W z s' < W z s := by
  have hen : (if s.enable = true then 1 else 0) ≤ 1 := by split <;> omega
  unfold inn at hi
  split at hi
  · rename_i h0; exact absurd h0 hd
  · rename_i p down hd
    obtain ⟨-, -, hi⟩ := Res.bind_eq_ok.1 hi
    obtain ⟨c, hc, hi⟩ := Res.bind_eq_ok.1 hi
    unfold ctl at hi
    obtain ⟨-, -, hi⟩ := Res.bind_eq_ok.1 hi
    cases hi
    have hstep : Stow.step g.n g.max (filt s) .resp = some (.ok { (filt s) with cl := c, down := fMsgs down }) := by
      simp only [Stow.step, filt, hd, fMsgs_f, hc, Res.ok_bind]
    have h2 := k_less z (work_step hmax (by simp) hstep)
    have h3 := k_pos z
    obtain ⟨G, F, hgr, hG⟩ := filterResp_grows hc
    have h4 : z.g * (c.get.length - s.taken) ≤ z.g * (s.cl.get.length - s.taken) + z.g := by
      have h5 : c.get.length - s.taken ≤ (s.cl.get.length - s.taken) + 1 := by rw [hgr.get, List.length_append]; omega
      have := Nat.mul_le_mul_left z.g h5
      rwa [Nat.mul_add, Nat.mul_one] at this
    have h6 : optW z.m c.info ≤ z.m := by cases c.info <;> simp [optW]
    have h7 : ({ (filt s) with cl := c, down := fMsgs down } : Stow.Sys) = filt { s with cl := c, down := down, enable := true } := rfl
    rw [h7] at h2
    simp only [W, hd, downW, hgr.subj, if_true] at *
    omega
  · rename_i p down hd
    obtain ⟨-, -, hi⟩ := Res.bind_eq_ok.1 hi
    have key : ∀ t : Sys, t.cl.subj = s.cl.subj → t.cl.get = s.cl.get → t.sv = s.sv → t.up = s.up → t.down = down → t.avail = s.avail → t.taken = s.taken →
        t.send = s.send → t.pend = s.pend → t.mpend = s.mpend → t.enable = true → W z t < W z s := by
      intro t e1 e2 e3 e4 e5 e6 e7 e8 e9 e10 e11
      have h6 : optW z.m t.cl.info ≤ z.m := by cases t.cl.info <;> simp [optW]
      have h7 : work (filt t) = work (filt s) := by simp only [work, filt, e1, e3, e4, e5, hd, fMsgs_d]
      simp only [W, h7, e1, e2, e4, e5, e6, e7, e8, e9, e10, e11, hd, downW, if_true]
      omega
    unfold dataResp at hi
    split at hi
    · cases hi
    · split at hi
      · cases hi
      · split at hi
        · obtain ⟨-, -, hi⟩ := Res.bind_eq_ok.1 hi
          unfold ctl at hi
          obtain ⟨-, -, hi⟩ := Res.bind_eq_ok.1 hi
          cases hi
          exact key _ rfl rfl rfl rfl rfl rfl rfl rfl rfl rfl rfl
        · split at hi
          · unfold ctl at hi
            obtain ⟨-, -, hi⟩ := Res.bind_eq_ok.1 hi
            cases hi
            exact key _ rfl rfl rfl rfl rfl rfl rfl rfl rfl rfl rfl
          · obtain ⟨-, -, hi⟩ := Res.bind_eq_ok.1 hi
            unfold ctl at hi
            obtain ⟨-, -, hi⟩ := Res.bind_eq_ok.1 hi
            cases hi
            exact key _ rfl rfl rfl rfl rfl rfl rfl rfl rfl rfl rfl
  · rename_i p down hd
    obtain ⟨-, -, hi⟩ := Res.bind_eq_ok.1 hi
    obtain ⟨-, -, hi⟩ := Res.bind_eq_ok.1 hi
    cases hi
    have h7 : work (filt { s with down := down, enable := false, gone := true }) = work (filt s) := by simp only [work, filt, hd, fMsgs_i]
    simp only [W, h7, hd, downW, Bool.false_eq_true, if_false]
    omega

theorem entry_len {g : Cfg} {files : List Item} (hg : CfgOk g files) {p : Item × Bytes} (hp : p.1.digest.length ≤ 64) : (entry g p).length ≤ 200 := by
  unfold entry
  split
  · simp
  · have h1 : (g.ident p.2).length ≤ 64 := by rw [Cfg.ident, List.length_take, (hg.sha p.2).1]; omega
    simp only [changedEntry, List.length_append]
    have a1 : (b!",\n\t    \"sha256:").length = 15 := by decide
    have a2 : (b!"\": \"id:").length = 7 := by decide
    have a3 : (b!"\"").length = 1 := by decide
    omega

theorem entries_len {g : Cfg} {files : List Item} (hg : CfgOk g files) : ∀ {l : List (Item × Bytes)}, (∀ p ∈ l, p.1.digest.length ≤ 64) →
    (l.flatMap (entry g)).length ≤ 200 * l.length
  | [], _ => by simp
  | p :: l, h => by
    have h1 := entry_len hg (h p (by simp))
    have h2 := entries_len hg (l := l) (fun q hq => h q (by simp [hq]))
    rw [List.flatMap_cons, List.length_append, List.length_cons]
    omega

/-- There is a bound for the list of files that have changed. -/
theorem changed_len {g : Cfg} {files : List Item} (hg : CfgOk g files) {k0 : Bytes → Bool} {s : Sys} (h : DInv g files k0 s) :
    s.changed.length ≤ 200 * (files.length + 2) := by
  have hget : s.cl.get.length ≤ files.length + 2 := by
    obtain ⟨V, M, h1, h2, h3, h4⟩ := base_items h.base
    have h5 := h3.length_le
    have h6 := congrArg List.length h1
    simp only [items, List.length_append, List.length_cons, List.length_nil] at h6
    have : (filt s).cl.get = s.cl.get := rfl
    rw [this] at h5
    omega
  have hsent : s.sent.length ≤ files.length + 2 := by
    have := congrArg List.length h.snt
    rw [List.length_map, List.length_take] at this
    omega
  have hdig : ∀ p ∈ s.sent, p.1.digest.length ≤ 64 := by
    intro p hp
    have : p.1 ∈ s.cl.get := by
      have : p.1 ∈ s.sent.map (·.1) := List.mem_map.2 ⟨p, hp, rfl⟩
      rw [h.snt] at this
      exact List.mem_of_mem_take this
    rcases get_item hg h.base this with ⟨-, k⟩ | k
    · exact Nat.le_of_eq (hg.files _ k).2
    · rw [k]; exact Nat.le_of_eq (hg.sha g.text).1
  rcases h.rest with he | hl
  · obtain ⟨D, r1, r2, r3, f1, f2, f3, f4, f5, f6, f7, f8⟩ := he.flow
    rw [f7]
    have h1 := entries_len hg (l := D) (fun p hp => hdig p (by rw [f1]; simp [hp]))
    have h2 := congrArg List.length f1
    simp only [List.length_append] at h2
    omega
  · rw [hl.changed]
    have h1 := entries_len hg hdig
    omega

/-- The file opened is not longer than this. -/
def Fits (l : Nat) : Ev → Prop
  | .round _ c _ _ => c.length ≤ l
  | _ => True

theorem step_work (z : Size) {g : Cfg} {files : List Item} (hg : CfgOk g files) {k0 : Bytes → Bool} {s s' : Sys} (h : DInv g files k0 s) {e : Ev}
    (ht : g.text.length ≤ z.l) (hz : 800 * (files.length + 2) + 16 ≤ z.m) (he : EvOk s e) (hf : Fits z.l e) (hs : step g s e = some (.ok s')) :
    W z s' ≤ W z s ∧ (¬Idle s e → W z s' < W z s) := by
  have hch := changed_len hg h
  have hen : (if s.enable = true then 1 else 0) ≤ 1 := by split <;> omega
  have hkp := k_pos z
  suffices hlt : (∀ sz c a b, e ≠ .round sz c a b) → (∀ i, e ≠ .other i) → W z s' < W z s by
    cases e with
    | round sz c a b =>
      have hs := Option.some.inj hs
      unfold round at hs
      obtain ⟨s1, h1, h2⟩ := Res.bind_eq_ok.1 hs
      have k1 : W z s1 ≤ W z s ∧ ((a = true ∧ s.enable = true) → W z s1 < W z s) ∧ (¬(a = true ∧ s.enable = true) → s1 = s) := by
        split at h1
        · rename_i hae
          simp only [Bool.and_eq_true] at hae
          have := out_work z hg h hae.2 ht (by omega) he.1 hf h1
          exact ⟨Nat.le_of_lt this, fun _ => this, fun k => absurd hae k⟩
        · rename_i hae
          simp only [Bool.and_eq_true] at hae
          cases h1
          exact ⟨Nat.le_refl _, fun k => absurd k hae, fun _ => rfl⟩
      have k2 : W z s' ≤ W z s1 ∧ ((b = true ∧ s1.down ≠ []) → W z s' < W z s1) := by
        split at h2
        · rename_i hb
          by_cases hd : s1.down = []
          · unfold inn at h2
            rw [hd] at h2
            cases h2
            exact ⟨Nat.le_refl _, fun k => absurd hd k.2⟩
          · have := inn_work z hg.max1 hd h2
            exact ⟨Nat.le_of_lt this, fun _ => this⟩
        · rename_i hb
          cases h2
          exact ⟨Nat.le_refl _, fun k => absurd k.1 hb⟩
      refine ⟨Nat.le_trans k2.1 k1.1, fun hi => ?_⟩
      by_cases hae : a = true ∧ s.enable = true
      · exact Nat.lt_of_le_of_lt k2.1 (k1.2.1 hae)
      · have e1 := k1.2.2 hae
        subst e1
        apply k2.2
        by_cases hb : b = true
        · refine ⟨hb, fun hd => hi ⟨?_, .inr hd⟩⟩
          cases a with
          | false => exact .inl rfl
          | true => right; cases hen : s1.enable with
            | false => rfl
            | true => exact absurd ⟨rfl, hen⟩ hae
        · exfalso
          apply hi
          refine ⟨?_, .inl (by simpa using hb)⟩
          cases a with
          | false => exact .inl rfl
          | true => right; cases hen : s1.enable with
            | false => rfl
            | true => exact absurd ⟨rfl, hen⟩ hae
    | other i => cases hs; exact ⟨Nat.le_refl _, fun k => absurd trivial k⟩
    | mtree => have := hlt (by simp) (by simp); exact ⟨Nat.le_of_lt this, fun _ => this⟩
    | recv => have := hlt (by simp) (by simp); exact ⟨Nat.le_of_lt this, fun _ => this⟩
    | run => have := hlt (by simp) (by simp); exact ⟨Nat.le_of_lt this, fun _ => this⟩
    | line => have := hlt (by simp) (by simp); exact ⟨Nat.le_of_lt this, fun _ => this⟩
    | eof => have := hlt (by simp) (by simp); exact ⟨Nat.le_of_lt this, fun _ => this⟩
    | stored => have := hlt (by simp) (by simp); exact ⟨Nat.le_of_lt this, fun _ => this⟩
    | metaStored => have := hlt (by simp) (by simp); exact ⟨Nat.le_of_lt this, fun _ => this⟩
  intro n1 n2
  cases e with
  | round sz c a b => exact absurd rfl (n1 sz c a b)
  | other i => exact absurd rfl (n2 i)
  | mtree =>
    simp only [step] at hs
    split at hs
    · rename_i ha
      have hs := Option.some.inj hs
      unfold mtree ctl at hs
      obtain ⟨-, -, hs⟩ := Res.bind_eq_ok.1 hs
      cases hs
      simp only [W, filt, if_true]
      split <;> omega
    · cases hs
  | recv =>
    simp only [step] at hs
    split at hs
    · rename_i kk
      have hs := Option.some.inj hs
      cases hup : s.up with
      | nil => exact absurd hup kk.2
      | cons m up =>
        rw [hup] at hs
        cases m with
        | filter p =>
          unfold input at hs
          obtain ⟨r, hr, hs⟩ := Res.bind_eq_ok.1 hs
          cases hs
          have hstep : Stow.step g.n g.max (filt s) .recv = some (.ok (filt { s with up := up, sv := r.2, down := s.down ++ r.1.map .filter })) := by
            simp only [Stow.step, filt, hup, fMsgs_f, hr, Res.ok_bind, fMsgs_append, fMsgs_filter]
          have h2 := k_less z (work_step hg.max1 (by simp) hstep)
          simp only [W, hup, upW, downW_append, downW_filter]
          omega
        | data p =>
          unfold input at hs
          simp only at hs
          split at hs
          · rename_i hp
            obtain ⟨-, -, hs⟩ := Res.bind_eq_ok.1 hs
            cases hs
            simp only [W, work, filt, fMsgs_d, fMsgs_i, hup, upW, if_pos hp]
            have : optW (z.m + 3) s.store ≤ z.m + 3 := by cases s.store <;> simp [optW]
            omega
          · rename_i hp
            cases hs
            simp only [W, work, filt, fMsgs_d, fMsgs_i, hup, upW, if_neg hp]
            omega
        | info p =>
          unfold input at hs
          simp only at hs
          split at hs
          · obtain ⟨-, -, hs⟩ := Res.bind_eq_ok.1 hs
            cases hs
            simp only [W, work, filt, fMsgs_d, fMsgs_i, hup, upW]
            omega
          · split at hs
            · cases hs
              simp only [W, work, filt, fMsgs_d, fMsgs_i, hup, upW]
              omega
            · cases hs
              simp only [W, work, filt, fMsgs_d, fMsgs_i, hup, upW, optW]
              omega
    · cases hs
  | run =>
    simp only [step] at hs
    split at hs
    · rename_i inp skip hj
      cases hs
      have hstep : Stow.step g.n g.max (filt s) .run = some (.ok (filt { s with sv := { s.sv with job := some ⟨inp, some (missing g.n s.known inp), skip⟩ }, log := s.log ++ inp.map (fun l => (l.take g.n, !s.known (l.take g.n))) })) := by
        simp only [Stow.step, filt, hj]
      have h2 := k_less z (work_step hg.max1 (by simp) hstep)
      dsimp only at h2
      simp only [W]
      omega
    · cases hs
  | line =>
    simp only [step] at hs
    split at hs
    · rename_i inp l ls skip hj
      have hs := Option.some.inj hs
      obtain ⟨r, hr, hs⟩ := Res.bind_eq_ok.1 hs
      cases hs
      have hstep : Stow.step g.n g.max (filt s) .line = some (.ok (filt { s with sv := { s.sv with job := some r.2 }, down := s.down ++ [.filter r.1] })) := by
        simp only [Stow.step, filt, hj, hr, Res.ok_bind, fMsgs_append, fMsgs_f, fMsgs_nil]
      have h2 := k_less z (work_step hg.max1 (by simp) hstep)
      dsimp only at h2
      simp only [W, downW_append, downW]
      omega
    · cases hs
  | eof =>
    simp only [step] at hs
    split at hs
    · rename_i inp skip hj
      cases hs
      have hstep : Stow.step g.n g.max (filt s) .eof = some (.ok (filt { s with sv := (filterEnd g.max s.sv ⟨inp, some [], skip⟩).2, down := s.down ++ (filterEnd g.max s.sv ⟨inp, some [], skip⟩).1.map .filter })) := by
        simp only [Stow.step, filt, hj, fMsgs_append, fMsgs_filter]
      have h2 := k_less z (work_step hg.max1 (by simp) hstep)
      simp only [W, downW_append, downW_filter]
      omega
    · cases hs
  | stored =>
    simp only [step] at hs
    split at hs
    · cases hs
    · rename_i d hp
      cases hs
      simp only [W, filt, hp, optW, downW_append, downW, fMsgs_append, fMsgs_d, fMsgs_nil, List.append_nil, work]
      omega
  | metaStored =>
    simp only [step] at hs
    split at hs
    · cases hs
    · rename_i ref b hp
      have hs := Option.some.inj hs
      obtain ⟨-, -, hs⟩ := Res.bind_eq_ok.1 hs
      cases hs
      simp only [W, filt, hp, optW, downW_append, downW, fMsgs_append, fMsgs_i, fMsgs_nil, List.append_nil, work]
      omega

end Verif.StowData
