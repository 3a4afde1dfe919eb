/-
Lemmas for property C62: a job comes to its end.
-/
import Verif.Props.StowData
import Verif.Props.StowLive

namespace Verif.StowData
open Verif Stow Props
open _root_.Verif.Rsilo (cstr)

/-! ### There is always something to do -/

/-- There is a message to come. -/
def More (s : Sys) : Prop := s.cl.wait ≠ [] ∨ s.cl.subj ≠ []

/-- What holds between two rounds. -/
structure LInv (g : Cfg) (s : Sys) : Prop where
  av : s.enable = false → s.avail = 0
  idle : s.enable = false → s.gone = false → (s.send ≠ none ∨ s.taken = s.cl.get.length) ∧ s.cl.info = none
  opened : s.enable = false → s.send ≠ none → More s ∨ 2 ≤ s.ack.length
  next : s.send = none → ∀ x, s.cl.get[s.taken]? = some x → x ≠ treeItem g → More s ∨ s.ack ≠ []

/-- What holds in a round between output and input. -/
def Mid (s : Sys) : Prop := s.send ≠ none ∨ s.taken = s.cl.get.length ∨ s.cl.subj ≠ []

theorem sendIds_same : ∀ (k : Nat) (s : Sys), (sendIds k s).cl.get = s.cl.get ∧ (sendIds k s).cl.info = s.cl.info ∧ (sendIds k s).taken = s.taken ∧
    (sendIds k s).ack = s.ack ∧ (sendIds k s).send = s.send ∧ (sendIds k s).enable = s.enable ∧ (More s → More (sendIds k s))
  | 0, s => ⟨rfl, rfl, rfl, rfl, rfl, rfl, fun h => h⟩
  | k + 1, s => by
    cases hs : s.cl.subj with
    | nil =>
      rw [sendIds, hs]
      exact ⟨rfl, rfl, rfl, rfl, rfl, rfl, fun h => h⟩
    | cons cp rest =>
      rw [sendIds_one k s hs]
      obtain ⟨h1, h2, h3, h4, h5, h6, h7⟩ := sendIds_same k { s with cl := { s.cl with subj := rest, wait := s.cl.wait ++ [cp] }, avail := s.avail - 1, up := s.up ++ [.filter (cp.digest.take s.cl.idSize)] }
      exact ⟨h1, h2, h3, h4, h5, h6, fun _ => h7 (.inl (by simp))⟩

theorem send_ack {g : Cfg} {files : List Item} {k0 : Bytes → Bool} {s : Sys} (h : DInv g files k0 s) (hs : s.send ≠ none) : s.ack ≠ [] := by
  rcases h.rest with he | hl
  · obtain ⟨D, r1, r2, r3, f1, f2, f3, f4, f5, f6, f7, f8⟩ := he.flow
    intro ha
    rw [ha] at f2
    have h1 := List.map_eq_nil_iff.1 f2.symm
    obtain ⟨-, h2⟩ := List.append_eq_nil_iff.1 h1
    obtain ⟨-, rfl⟩ := List.append_eq_nil_iff.1 h2
    exact hs (flow_none f5).2.2
  · exact absurd hl.send hs

theorem out_live {g : Cfg} {files : List Item} (hg : CfgOk g files) {k0 : Bytes → Bool} {s s' : Sys} (h : DInv g files k0 s) (hl : LInv g s) (hen : s.enable = true)
    {sz : Nat} (hsz : 0 < sz) {c : Bytes} (hc : c ≠ []) (ho : out g sz c s = .ok s') : LInv g s' ∧ Mid s' := by
  obtain ⟨d1, -, d3⟩ := sendIds_inv hg (min 10 s.avail) s (by omega) h
  obtain ⟨i1, i2, i3, i4, i5, i6, i7⟩ := sendIds_same (min 10 s.avail) s
  obtain ⟨s1, hs1⟩ : ∃ s1, s1 = sendIds (min 10 s.avail) s := ⟨_, rfl⟩
  have hnext : s1.send = none → ∀ x, s1.cl.get[s1.taken]? = some x → x ≠ treeItem g → More s1 ∨ s1.ack ≠ [] := by
    rw [hs1, i1, i3, i4, i5]
    intro a x b d
    rcases hl.next a x b d with k | k
    · exact .inl (i7 k)
    · exact .inr k
  have hen1 : s1.enable = true := by rw [hs1, i6, hen]
  unfold out at ho
  rw [← hs1] at ho d1
  clear hs1 i1 i2 i3 i4 i5 i6 i7 d3 hl h hen
  obtain ⟨p1, -, -, p4⟩ := sendPiece_inv d1 hsz
  -- after the piece
  have hp : ((sendPiece sz s1).2 = false → (sendPiece sz s1).1.send ≠ none) ∧ (sendPiece sz s1).1.enable = true ∧ (sendPiece sz s1).1.cl = s1.cl ∧
      (sendPiece sz s1).1.taken = s1.taken ∧
      ((sendPiece sz s1).2 = true → ∀ x, s1.cl.get[s1.taken]? = some x → x ≠ treeItem g → More s1 ∨ (sendPiece sz s1).1.ack ≠ []) := by
    unfold sendPiece
    cases hsd : s1.send with
    | none => exact ⟨fun h => (by cases h), hen1, rfl, rfl, fun _ => hnext hsd⟩
    | some r =>
      have ha := send_ack d1 (by rw [hsd]; simp)
      simp only
      split
      · exact ⟨fun _ => by simp, hen1, rfl, rfl, fun h => (by cases h)⟩
      · exact ⟨fun h => (by cases h), hen1, rfl, rfl, fun _ _ _ _ => .inr ha⟩
  obtain ⟨r, hr⟩ : ∃ r, r = sendPiece sz s1 := ⟨_, rfl⟩
  simp only at ho
  rw [← hr] at ho hp p1 p4
  obtain ⟨q1, q2, q3, q4, q5⟩ := hp
  clear hr
  have hmore : More s1 → More r.1 := by unfold More; rw [q3]; exact id
  have en_live : ∀ t : Sys, t.enable = true → (t.send = none → ∀ x, t.cl.get[t.taken]? = some x → x ≠ treeItem g → More t ∨ t.ack ≠ []) → LInv g t := by
    intro t ht h
    exact ⟨fun k => absurd (ht.symm.trans k) (by decide), fun k => absurd (ht.symm.trans k) (by decide), fun k => absurd (ht.symm.trans k) (by decide), h⟩
  split at ho
  · rename_i h2
    cases ho
    exact ⟨en_live _ q2 (fun k => absurd k (q1 h2)), .inl (q1 h2)⟩
  · rename_i h2
    have h2' : r.2 = true := by simpa using h2
    have hnone := p4 h2'
    split at ho
    · rename_i h3
      cases ho
      have hsub : r.1.cl.subj ≠ [] := by
        intro k
        have := p1.av
        rw [k] at this
        simp only [List.length_nil] at this
        omega
      refine ⟨en_live _ q2 ?_, .inr (.inr hsub)⟩
      intro _ _ _ _
      exact .inl (.inr hsub)
    · rename_i h3
      have hav : r.1.avail = 0 := by omega
      obtain ⟨m1, m2, m3⟩ := openNext_inv hg p1 hnone hc
      -- what has been opened
      have hq : ((openNext g c r.1).2 = false → (openNext g c r.1).1.send ≠ none ∧ (openNext g c r.1).1.enable = true) ∧ (openNext g c r.1).1.cl = r.1.cl ∧
          ((openNext g c r.1).2 = true → ((openNext g c r.1).1.send ≠ none ∧ (More r.1 ∨ 2 ≤ (openNext g c r.1).1.ack.length)) ∨
            ((openNext g c r.1).1.send = none ∧ (openNext g c r.1).1.taken = r.1.cl.get.length)) := by
        unfold openNext
        cases hd : r.1.cl.get.drop r.1.taken with
        | nil =>
          refine ⟨fun h => (by cases h), rfl, fun _ => .inr ⟨hnone, ?_⟩⟩
          have h5 := List.drop_eq_nil_iff.1 hd
          have := p1.tk
          simp only
          omega
        | cons cp l =>
          simp only
          split
          · exact ⟨fun _ => ⟨by simp, q2⟩, rfl, fun h => (by cases h)⟩
          · rename_i hf
            refine ⟨fun h => (by cases h), rfl, fun _ => .inl ⟨by simp, ?_⟩⟩
            have hx : s1.cl.get[s1.taken]? = some cp := by
              rw [← q3, ← q4]
              have := congrArg (fun l => l[0]?) hd
              simpa using this
            rcases q5 h2' cp hx (by rintro rfl; exact hf rfl) with k | k
            · exact .inl (hmore k)
            · right
              have := List.length_pos_iff.2 k
              rw [List.length_append, List.length_singleton]
              omega
      obtain ⟨q, hqq⟩ : ∃ q, q = openNext g c r.1 := ⟨_, rfl⟩
      rw [← hqq] at ho hq m1 m2
      obtain ⟨o1, o2, o3⟩ := hq
      split at ho
      · rename_i h4
        cases ho
        exact ⟨en_live _ (o1 h4).2 (fun k => absurd k (o1 h4).1), .inl (o1 h4).1⟩
      · rename_i h4
        have h4' : q.2 = true := by simpa using h4
        obtain ⟨t, ht, ho⟩ := Res.bind_eq_ok.1 ho
        -- the metadata
        have hti : t.cl.info = none ∧ t.cl.get = q.1.cl.get ∧ t.cl.wait = q.1.cl.wait ∧ t.cl.subj = q.1.cl.subj ∧ t.taken = q.1.taken ∧ t.ack = q.1.ack ∧ t.send = q.1.send ∧ t.avail = q.1.avail := by
          unfold sendInfo at ht
          split at ht
          · rename_i hi
            cases ht
            exact ⟨hi, rfl, rfl, rfl, rfl, rfl, rfl, rfl⟩
          · obtain ⟨-, -, ht⟩ := Res.bind_eq_ok.1 ht
            cases ht
            exact ⟨rfl, rfl, rfl, rfl, rfl, rfl, rfl, rfl⟩
        obtain ⟨t1, t2, t3, t4, t5, t6, t7, t8⟩ := hti
        unfold ctl at ho
        obtain ⟨-, -, ho⟩ := Res.bind_eq_ok.1 ho
        cases ho
        have hm : More r.1 → More t := by unfold More; rw [t3, t4, o2]; exact id
        rcases o3 h4' with ⟨a, b⟩ | ⟨a, b⟩
        · have hsd : t.send ≠ none := by rw [t7]; exact a
          refine ⟨⟨fun _ => ?_, fun _ _ => ⟨.inl hsd, t1⟩, fun _ _ => ?_, fun k => absurd k hsd⟩, .inl hsd⟩
          · show t.avail = 0
            omega
          · rcases b with b | b
            · exact .inl (hm b)
            · exact .inr (by show 2 ≤ t.ack.length; rw [t6]; exact b)
        · have htk : t.taken = t.cl.get.length := by rw [t5, b, t2, o2]
          refine ⟨⟨fun _ => ?_, fun _ _ => ⟨.inr htk, t1⟩, fun _ k => absurd (t7.trans a) k, fun _ x hx => ?_⟩, .inr (.inl htk)⟩
          · show t.avail = 0
            omega
          · have hx' : t.cl.get[t.taken]? = some x := hx
            rw [htk, List.getElem?_eq_none (Nat.le_refl _)] at hx'
            cases hx'

theorem inn_live {g : Cfg} {files : List Item} {k0 : Bytes → Bool} {s s' : Sys} (hg : CfgOk g files) (h : DInv g files k0 s) (hl : LInv g s)
    (hm : Mid s) (hi : inn s = .ok s') (hord : InOrder g s') (h' : DInv g files k0 s') : LInv g s' := by
  have en_live : ∀ t : Sys, t.enable = true → (t.send = none → ∀ x, t.cl.get[t.taken]? = some x → x ≠ treeItem g → More t ∨ t.ack ≠ []) → LInv g t := by
    intro t ht h
    exact ⟨fun k => absurd (ht.symm.trans k) (by decide), fun k => absurd (ht.symm.trans k) (by decide), fun k => absurd (ht.symm.trans k) (by decide), h⟩
  have mid_live : ∀ t : Sys, t.enable = true → t.send = s.send → t.taken = s.taken → t.cl.get = s.cl.get → t.cl.subj = s.cl.subj → LInv g t := by
    intro t ht e1 e2 e3 e4
    refine en_live t ht ?_
    intro hsn x hx hne
    rcases hm with k | k | k
    · exact absurd (e1.symm.trans hsn) k
    · rw [e2, e3, k, List.getElem?_eq_none (Nat.le_refl _)] at hx; cases hx
    · exact .inl (.inr (by rw [e4]; exact k))
  unfold inn at hi
  split at hi
  · cases hi; exact hl
  · rename_i p down hd
    obtain ⟨-, -, hi⟩ := Res.bind_eq_ok.1 hi
    obtain ⟨c, hc, hi⟩ := Res.bind_eq_ok.1 hi
    unfold ctl at hi
    obtain ⟨-, -, hi⟩ := Res.bind_eq_ok.1 hi
    cases hi
    obtain ⟨G, F, hgr, hG⟩ := filterResp_grows hc
    refine en_live _ rfl ?_
    intro hsn x hx hne
    simp only at hsn hx
    rcases hm with k | k | k
    · exact absurd hsn k
    · rw [hgr.get, List.getElem?_append_right (by omega), k, Nat.sub_self] at hx
      cases G with
      | nil => cases hx
      | cons y G =>
        cases hx
        have hG0 : G = [] := List.eq_nil_of_length_eq_zero (by simp only [List.length_cons] at hG; omega)
        subst hG0
        -- the tree's verdict is still to come
        have hget : c.get = s.cl.get ++ [x] := hgr.get
        have hnf : treeItem g ∉ c.flushed := fun hf => by
          have := hord hf
          rw [show c.get = [] from this] at hget
          simp at hget
        have hng : treeItem g ∉ c.get := by
          intro hm
          obtain ⟨X, Y, hXY⟩ := List.append_of_mem hm
          have hY := get_tree hg h'.base (u := filt _) hXY
          subst hY
          rw [hget] at hXY
          have := (List.append_inj' hXY rfl).2
          simp only [List.cons.injEq, and_true] at this
          exact hne this
        obtain ⟨⟨R, A, B, hi⟩, -⟩ := h'.base
        by_cases hw : c.wait = []
        · by_cases hsub : c.subj = []
          · exfalso
            have hall : items g files = R.map (·.1) ++ A.map (·.1) ++ B ++ c.subj := hi.all
            have h1 : A.map (·.1) ++ B = [] := by rw [← hi.wait]; exact hw
            obtain ⟨h2, h3⟩ := List.append_eq_nil_iff.1 h1
            rw [h2, h3, hsub] at hall
            simp only [List.append_nil] at hall
            have ht : treeItem g ∈ R.map (·.1) := by rw [← hall]; simp [items]
            obtain ⟨a, ha, e⟩ := List.mem_map.1 ht
            cases ha2 : a.2 with
            | true => exact hng (by rw [show c.get = _ from hi.get, ← e]; exact List.mem_map.2 ⟨a, List.mem_filter.2 ⟨ha, ha2⟩, rfl⟩)
            | false => exact hnf (by rw [show c.flushed = _ from hi.flushed, ← e]; exact List.mem_map.2 ⟨a, List.mem_filter.2 ⟨ha, by simp [ha2]⟩, rfl⟩)
          · exact .inl (.inr hsub)
        · exact .inl (.inl hw)
    · exact .inl (.inr (by show c.subj ≠ []; rw [hgr.subj]; exact k))
  · rename_i p down hd
    obtain ⟨-, -, hi⟩ := Res.bind_eq_ok.1 hi
    unfold dataResp at hi
    split at hi
    · cases hi
    · split at hi
      · cases hi
      · split at hi
        · obtain ⟨-, -, hi⟩ := Res.bind_eq_ok.1 hi
          unfold ctl at hi
          obtain ⟨-, -, hi⟩ := Res.bind_eq_ok.1 hi
          cases hi
          exact mid_live _ rfl rfl rfl rfl rfl
        · split at hi
          · unfold ctl at hi
            obtain ⟨-, -, hi⟩ := Res.bind_eq_ok.1 hi
            cases hi
            exact mid_live _ rfl rfl rfl rfl rfl
          · obtain ⟨-, -, hi⟩ := Res.bind_eq_ok.1 hi
            unfold ctl at hi
            obtain ⟨-, -, hi⟩ := Res.bind_eq_ok.1 hi
            cases hi
            exact mid_live _ rfl rfl rfl rfl rfl
  · rename_i p down hd
    obtain ⟨-, -, hi⟩ := Res.bind_eq_ok.1 hi
    obtain ⟨-, -, hi⟩ := Res.bind_eq_ok.1 hi
    cases hi
    rcases h'.rest with he | hlt
    · have := he.gone
      cases this
    · refine ⟨fun _ => ?_, fun _ k => (by cases k), fun _ k => absurd hlt.send k, fun _ x hx => ?_⟩
      · cases hlt.phase with
        | due a1 a2 a3 => cases a3
        | way fs is a1 a2 a3 => cases a3
        | answer fs u a1 a2 a3 => cases a3
        | done a1 a2 a3 a4 a5 a6 a7 a8 a9 =>
          have := h'.av
          rw [a9] at this
          simp only [List.length_nil] at this
          show s.avail = 0
          omega
      · rw [hlt.taken, List.getElem?_eq_none (Nat.le_refl _)] at hx; cases hx

/-- The connection can be written to. -/
def Ready : Ev → Prop
  | .round _ _ ready _ => ready = true
  | _ => True

theorem live_same {g : Cfg} {s t : Sys} (h : LInv g s) (e1 : t.cl = s.cl) (e2 : t.avail = s.avail) (e3 : t.taken = s.taken) (e4 : t.ack = s.ack)
    (e5 : t.send = s.send) (e6 : t.enable = s.enable) (e7 : t.gone = s.gone) : LInv g t := by
  obtain ⟨h1, h2, h3, h4⟩ := h
  refine ⟨?_, ?_, ?_, ?_⟩
  · rw [e6, e2]; exact h1
  · rw [e6, e7, e5, e3, e1]; exact h2
  · unfold More at h3 ⊢; rw [e6, e5, e1, e4]; exact h3
  · unfold More at h4 ⊢; rw [e5, e1, e3, e4]; exact h4

theorem input_same {g : Cfg} {s s' : Sys} : ∀ {l : List Msg}, input g s l = .ok s' → s'.cl = s.cl ∧ s'.avail = s.avail ∧ s'.taken = s.taken ∧ s'.ack = s.ack ∧
    s'.send = s.send ∧ s'.enable = s.enable ∧ s'.gone = s.gone
  | [], h => by cases h; exact ⟨rfl, rfl, rfl, rfl, rfl, rfl, rfl⟩
  | .filter p :: up, h => by
    unfold input at h
    obtain ⟨r, -, h⟩ := Res.bind_eq_ok.1 h
    cases h
    exact ⟨rfl, rfl, rfl, rfl, rfl, rfl, rfl⟩
  | .data p :: up, h => by
    unfold input at h
    simp only at h
    split at h
    · obtain ⟨-, -, h⟩ := Res.bind_eq_ok.1 h
      cases h
      exact ⟨rfl, rfl, rfl, rfl, rfl, rfl, rfl⟩
    · cases h
      exact ⟨rfl, rfl, rfl, rfl, rfl, rfl, rfl⟩
  | .info p :: up, h => by
    unfold input at h
    simp only at h
    split at h
    · obtain ⟨-, -, h⟩ := Res.bind_eq_ok.1 h
      cases h
      exact ⟨rfl, rfl, rfl, rfl, rfl, rfl, rfl⟩
    · split at h <;> cases h <;> exact ⟨rfl, rfl, rfl, rfl, rfl, rfl, rfl⟩

/-- The two halves of a round. -/
theorem round_split {g : Cfg} {sz : Nat} {c : Bytes} {b : Bool} {s s' : Sys} (h : round g sz c true b s = .ok s') :
    ∃ s1, ((s.enable = true ∧ out g sz c s = .ok s1) ∨ (s.enable = false ∧ s1 = s)) ∧ ((b = true ∧ inn s1 = .ok s') ∨ (b = false ∧ s' = s1)) := by
  unfold round at h
  obtain ⟨s1, h1, h2⟩ := Res.bind_eq_ok.1 h
  refine ⟨s1, ?_, ?_⟩
  · cases he : s.enable with
    | true => rw [he] at h1; exact .inl ⟨rfl, h1⟩
    | false => rw [he] at h1; cases h1; exact .inr ⟨rfl, rfl⟩
  · cases b with
    | true => exact .inl ⟨rfl, h2⟩
    | false => cases h2; exact .inr ⟨rfl, rfl⟩

theorem step_live {g : Cfg} {files : List Item} (hg : CfgOk g files) {k0 : Bytes → Bool} {s s' : Sys} (h : DInv g files k0 s) (hl : LInv g s) {e : Ev}
    (he : EvOk s e) (hr : Ready e) (hs : step g s e = some (.ok s')) (hord : InOrder g s') : LInv g s' := by
  obtain ⟨s2, e2, h'⟩ := step_inv hg h he hs
  cases e2
  have h' := h' hord
  cases e with
  | round sz c a b =>
    cases (show a = true from hr)
    obtain ⟨s1, h1, h2⟩ := round_split (Option.some.inj hs)
    have key : DInv g files k0 s1 ∧ LInv g s1 ∧ Mid s1 := by
      rcases h1 with ⟨en, h1⟩ | ⟨en, rfl⟩
      · obtain ⟨s3, e3, d3⟩ := out_inv hg h en he.1 he.2
        rw [h1] at e3
        cases e3
        exact ⟨d3, out_live hg h hl en he.1 he.2 h1⟩
      · refine ⟨h, hl, ?_⟩
        cases hgn : s1.gone with
        | false =>
          rcases (hl.idle en hgn).1 with k | k
          · exact .inl k
          · exact .inr (.inl k)
        | true =>
          rcases h.rest with he | hlt
          · rw [he.gone] at hgn; cases hgn
          · exact .inr (.inl hlt.taken)
    rcases h2 with ⟨-, h2⟩ | ⟨-, rfl⟩
    · exact inn_live hg key.1 key.2.1 key.2.2 h2 hord h'
    · exact key.2.1
  | mtree =>
    simp only [step] at hs
    split at hs
    · rename_i ha
      have hs := Option.some.inj hs
      unfold mtree ctl at hs
      obtain ⟨-, -, hs⟩ := Res.bind_eq_ok.1 hs
      cases hs
      refine ⟨fun k => (by cases k), fun k => (by cases k), fun k => (by cases k), ?_⟩
      intro _ _ _ _
      left; right
      intro k
      have k' : s.cl.subj = [] := k
      rw [k'] at ha
      cases ha
    · cases hs
  | recv =>
    simp only [step] at hs
    split at hs
    · obtain ⟨e1, e2, e3, e4, e5, e6, e7⟩ := input_same (Option.some.inj hs)
      exact live_same hl e1 e2 e3 e4 e5 e6 e7
    · cases hs
  | run =>
    simp only [step] at hs
    split at hs
    · cases hs; exact live_same hl rfl rfl rfl rfl rfl rfl rfl
    · cases hs
  | line =>
    simp only [step] at hs
    split at hs
    · have hs := Option.some.inj hs
      obtain ⟨r, -, hs⟩ := Res.bind_eq_ok.1 hs
      cases hs; exact live_same hl rfl rfl rfl rfl rfl rfl rfl
    · cases hs
  | eof =>
    simp only [step] at hs
    split at hs
    · cases hs; exact live_same hl rfl rfl rfl rfl rfl rfl rfl
    · cases hs
  | stored =>
    simp only [step] at hs
    split at hs
    · cases hs
    · cases hs; exact live_same hl rfl rfl rfl rfl rfl rfl rfl
  | metaStored =>
    simp only [step] at hs
    split at hs
    · cases hs
    · have hs := Option.some.inj hs
      obtain ⟨-, -, hs⟩ := Res.bind_eq_ok.1 hs
      cases hs; exact live_same hl rfl rfl rfl rfl rfl rfl rfl
  | other ids =>
    cases hs; exact live_same hl rfl rfl rfl rfl rfl rfl rfl

/-- A step that does nothing for the job. -/
def Idle (s : Sys) : Ev → Prop
  | .round _ _ ready hasIn => (ready = false ∨ s.enable = false) ∧ (hasIn = false ∨ s.down = [])
  | .other _ => True
  | _ => False

instance (s : Sys) (e : Ev) : Decidable (Idle s e) := by
  cases e <;> unfold Idle <;> infer_instance

/-- As long as the job is not done, there is something that can be done for it. -/
theorem live_step {g : Cfg} {files : List Item} (hg : CfgOk g files) {k0 : Bytes → Bool} {s : Sys} (h : DInv g files k0 s) (hl : LInv g s) (hgone : s.gone = false) :
    ∃ e s', ¬Idle s e ∧ Ready e ∧ EvOk s e ∧ step g s e = some (.ok s') := by
  have done : ∀ {e : Ev}, ¬Idle s e → Ready e → EvOk s e → step g s e ≠ none → ∃ e s', ¬Idle s e ∧ Ready e ∧ EvOk s e ∧ step g s e = some (.ok s') := by
    intro e h1 h2 h3 h4
    cases hs : step g s e with
    | none => exact absurd hs h4
    | some r =>
      obtain ⟨s', rfl, -⟩ := step_inv hg h h3 hs
      exact ⟨e, s', h1, h2, h3, hs⟩
  by_cases c1 : s.enable = true
  · exact done (e := .round 1 [0] true true) (fun k => k.1.elim (fun k => by cases k) (fun k => absurd (c1.symm.trans k) (by decide))) rfl ⟨by decide, by decide⟩ (by simp [step])
  have c1 : s.enable = false := by simpa using c1
  by_cases c2 : s.down ≠ []
  · exact done (e := .round 1 [0] true true) (fun k => k.2.elim (fun k => by cases k) c2) rfl ⟨by decide, by decide⟩ (by simp [step])
  have c2 : s.down = [] := Decidable.not_not.1 c2
  by_cases c3 : s.avail < s.cl.subj.length
  · exact done (e := .mtree) id trivial trivial (by simp [step, c3])
  cases c4 : s.pend with
  | some d => exact done (e := .stored) id trivial trivial (by simp [step, c4])
  | none =>
  by_cases c5 : s.up ≠ []
  · exact done (e := .recv) id trivial trivial (by simp [step, c4, c5])
  have c5 : s.up = [] := Decidable.not_not.1 c5
  cases c6 : s.sv.job with
  | some j =>
    obtain ⟨inp, o, skip⟩ := j
    cases o with
    | none => exact done (e := .run) id trivial trivial (by simp [step, c6])
    | some ls =>
      cases ls with
      | nil => exact done (e := .eof) id trivial trivial (by simp [step, c6])
      | cons l ls => exact done (e := .line) id trivial trivial (by simp [step, c6])
  | none =>
  cases c7 : s.mpend with
  | some m => exact done (e := .metaStored) id trivial c6 (by simp [step, c7])
  | none =>
  -- nothing left
  exfalso
  have hav := hl.av c1
  have hsub : s.cl.subj = [] := List.eq_nil_of_length_eq_zero (by omega)
  have hbase := h.base
  obtain ⟨⟨R, A, B, hi⟩, hlog⟩ := h.base
  obtain ⟨V, v1, v2, v3, v4, v5⟩ := quiet_verdicts (asked_len hg) hi ⟨hsub, by simp [filt, c5], by simp [filt, c2], c6, base_busy hbase c6⟩
  obtain ⟨i1, i2⟩ := hl.idle c1 hgone
  rcases h.rest with he | hlt
  · obtain ⟨D, r1, r2, r3, f1, f2, f3, f4, f5, f6, f7, f8⟩ := he.flow
    rw [c2] at f3
    have hr1 : r1 = [] := List.map_eq_nil_iff.1 f3.symm
    rw [c4] at f4
    have hr2 : r2 = [] := List.map_eq_nil_iff.1 f4.symm
    subst hr1 hr2
    rw [c5, dMsgs_nil] at f5
    by_cases hsd : s.send = none
    · have htk : s.taken = s.cl.get.length := by
        rcases i1 with k | k
        · exact absurd hsd k
        · exact k
      have hr3 : r3 = [] := by
        rcases (flow_nil_iff _ _ _).1 f5 with ⟨-, -, k⟩ | ⟨-, r', k, -⟩ | ⟨b, r', -, k, -⟩
        · exact List.map_eq_nil_iff.1 k
        · rw [hsd] at k; cases k
        · rw [hsd] at k; cases k
      subst hr3
      have htree : treeItem g ∈ V.map (·.1) := by rw [v1]; simp [asked, treeItem]
      obtain ⟨v, hv, e⟩ := List.mem_map.1 htree
      cases hv2 : v.2 with
      | true =>
        have hgt : treeItem g ∈ s.cl.get := by
          rw [show s.cl.get = _ from v3, ← e]; exact List.mem_map.2 ⟨v, List.mem_filter.2 ⟨hv, hv2⟩, rfl⟩
        have hst : treeItem g ∈ s.sent.map (·.1) := by rw [h.snt, htk, List.take_length]; exact hgt
        obtain ⟨p, hp, e'⟩ := List.mem_map.1 hst
        rw [f1] at hp
        have := f8 p (by simpa using hp)
        rw [e'] at this
        cases this
      | false =>
        apply he.notFl
        rw [show s.cl.flushed = _ from v5, ← e]
        exact List.mem_append_left _ (List.mem_map.2 ⟨v, List.mem_filter.2 ⟨hv, by simp [hv2]⟩, rfl⟩)
    · rcases hl.opened c1 hsd with k | k
      · rcases k with k | k
        · exact k v4
        · exact k hsub
      · rw [f2, List.length_map] at k
        have hlen : r3.length ≤ 1 := by
          rw [← List.length_map (f := (·.2))]
          rcases (flow_nil_iff _ _ _).1 f5 with ⟨-, -, k⟩ | ⟨-, r', -, -, k⟩ | ⟨b, r', -, -, k⟩ <;> rw [k] <;> simp
        simp only [List.nil_append] at k
        omega
  · cases hlt.phase with
    | due a1 => rw [a1] at i2; cases i2
    | way fs is a1 a2 a3 a4 a5 a6 a7 a8 =>
      rw [c5] at a7
      obtain ⟨h1, h2⟩ := List.append_eq_nil_iff.1 a7.symm
      have hfs : fs = [] := List.map_eq_nil_iff.1 h1
      have his : is = [] := List.map_eq_nil_iff.1 h2
      subst hfs his
      rcases a8 with ⟨k1, k2, k3⟩ | ⟨b, Q, k1, k2, k3, k4, k5, k6⟩ | ⟨k1, k2, k3, k4⟩
      · obtain ⟨Q, e1, -⟩ := metaMsgs_spec g (g.sha g.text) s.changed
        rw [e1] at k3
        cases k3
      · simp at k4
      · rw [c7] at k2; cases k2
    | answer fs u a1 a2 a3 a4 a5 a6 a7 a8 a9 a10 a11 => rw [c2] at a11; simp at a11
    | done a1 a2 a3 => rw [a3] at hgone; cases hgone

end Verif.StowData
