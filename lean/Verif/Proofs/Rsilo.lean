/-
Lemmas about reading silos.
-/
import Verif.Model.Rsilo
import Verif.Proofs.Segment

namespace Verif.Inflate
open Verif Gzip

theorem skipZ_local {l d : Bytes} (h : skipZ l = some d) : ∃ c, l = c ++ d ∧ ∀ d', skipZ (c ++ d') = some d' := by
  induction l with
  | nil => simp [skipZ] at h
  | cons x l ih =>
    rw [skipZ] at h
    split at h
    · next hx => cases h; exact ⟨[x], rfl, fun d' => by simp [skipZ, hx]⟩
    · next hx =>
      obtain ⟨c, rfl, hc⟩ := ih h
      exact ⟨x :: c, rfl, fun d' => by rw [List.cons_append, skipZ, if_neg hx]; exact hc d'⟩

/-- An optional part of a gzip header. -/
theorem optional_local {b : Bool} {f : Bytes → Option Bytes}
    (hf : ∀ l d, f l = some d → ∃ c, l = c ++ d ∧ ∀ d', f (c ++ d') = some d') {l d : Bytes}
    (h : (if b then f l else some l) = some d) :
    ∃ c, l = c ++ d ∧ ∀ d', (if b then f (c ++ d') else some (c ++ d')) = some d' := by
  cases b with
  | false =>
    simp only [Bool.false_eq_true, if_false, Option.some.injEq] at h
    exact ⟨[], h, fun d' => by simp⟩
  | true =>
    simp only [if_true] at h ⊢
    exact hf l d h

theorem skipExtra_local (l d : Bytes) (h : skipExtra l = some d) : ∃ c, l = c ++ d ∧ ∀ d', skipExtra (c ++ d') = some d' := by
  match l, h with
  | a :: b :: l, h =>
    unfold skipExtra at h
    simp only at h
    split at h
    · next hl =>
      cases h
      refine ⟨a :: b :: l.take (a.toNat + 256 * b.toNat), by simp, fun d' => ?_⟩
      have ht : (l.take (a.toNat + 256 * b.toNat)).length = a.toNat + 256 * b.toNat := by rw [List.length_take]; omega
      unfold skipExtra
      simp only [List.cons_append]
      rw [if_pos (by rw [List.length_append, ht]; omega), List.drop_left' ht]
    · cases h

theorem skipCrc_local (l d : Bytes) (h : skipCrc l = some d) : ∃ c, l = c ++ d ∧ ∀ d', skipCrc (c ++ d') = some d' := by
  unfold skipCrc at h
  split at h
  · next hl =>
    cases h
    have ht : (l.take 2).length = 2 := by rw [List.length_take]; omega
    refine ⟨l.take 2, (List.take_append_drop 2 l).symm, fun d' => ?_⟩
    unfold skipCrc
    rw [if_pos (by rw [List.length_append, ht]; omega), List.drop_left' ht]
  · cases h

/-- The header consists of its own bytes only: what follows can be replaced. -/
theorem gzHeader_local {l d : Bytes} (h : gzHeader l = some d) : ∃ c, l = c ++ d ∧ ∀ d', gzHeader (c ++ d') = some d' := by
  match l, h with
  | id1 :: id2 :: cm :: flg :: m1 :: m2 :: m3 :: m4 :: x :: o :: l, h =>
    have key : ∀ l, gzHeader (id1 :: id2 :: cm :: flg :: m1 :: m2 :: m3 :: m4 :: x :: o :: l) =
        if id1 = 0x1f ∧ id2 = 0x8b ∧ cm = 8 ∧ flg < 32 then
          ((if flg.toNat.testBit 2 then skipExtra l else some l).bind fun l =>
            (if flg.toNat.testBit 3 then skipZ l else some l).bind fun l =>
              (if flg.toNat.testBit 4 then skipZ l else some l).bind fun l =>
                if flg.toNat.testBit 1 then skipCrc l else some l)
        else none := by
      intro l; rfl
    rw [key] at h
    split at h
    · next hg =>
      rw [Option.bind_eq_some_iff] at h
      obtain ⟨l1, h1, h⟩ := h
      rw [Option.bind_eq_some_iff] at h
      obtain ⟨l2, h2, h⟩ := h
      rw [Option.bind_eq_some_iff] at h
      obtain ⟨l3, h3, h⟩ := h
      obtain ⟨c1, rfl, g1⟩ := optional_local skipExtra_local h1
      obtain ⟨c2, rfl, g2⟩ := optional_local (fun l d => skipZ_local) h2
      obtain ⟨c3, rfl, g3⟩ := optional_local (fun l d => skipZ_local) h3
      obtain ⟨c4, rfl, g4⟩ := optional_local skipCrc_local h
      refine ⟨id1 :: id2 :: cm :: flg :: m1 :: m2 :: m3 :: m4 :: x :: o :: (c1 ++ (c2 ++ (c3 ++ c4))), by simp, fun d' => ?_⟩
      simp only [List.cons_append, List.append_assoc]
      rw [key, if_pos hg, g1, Option.bind_some, g2, Option.bind_some, g3, Option.bind_some, g4]
    · cases h
  | [], h => simp [gzHeader] at h
  | [_], h => simp [gzHeader] at h
  | [_, _], h => simp [gzHeader] at h
  | [_, _, _], h => simp [gzHeader] at h
  | [_, _, _, _], h => simp [gzHeader] at h
  | [_, _, _, _, _], h => simp [gzHeader] at h
  | [_, _, _, _, _, _], h => simp [gzHeader] at h
  | [_, _, _, _, _, _, _], h => simp [gzHeader] at h
  | [_, _, _, _, _, _, _, _], h => simp [gzHeader] at h
  | [_, _, _, _, _, _, _, _, _], h => simp [gzHeader] at h

/-- A gzip member consists of its own bytes only: what follows can be replaced. -/
theorem gunzip1_local {l out rest : Bytes} (h : gunzip1 l = some (out, rest)) :
    ∃ c, l = c ++ rest ∧ c ≠ [] ∧ ∀ r', gunzip1 (c ++ r') = some (out, r') := by
  unfold gunzip1 at h
  split at h
  · cases h
  · next d hd =>
    split at h
    · cases h
    · next ts r hdef =>
      simp only at h
      split at h
      · cases h
      · next out' hex =>
        split at h
        · next hc =>
          obtain ⟨h8, hcrc, hlen⟩ := hc
          cases h
          obtain ⟨ch, rfl, hch⟩ := gzHeader_local hd
          obtain ⟨cb, hcb, hloc⟩ := local_deflateToks _ _ _ hdef
          obtain ⟨k, hk⟩ : ∃ k, k = r.length / 8 := ⟨_, rfl⟩
          rw [← hk] at h8 hcrc hlen ⊢
          have hrl : r.length ≤ 8 * d.length := by
            have := congrArg List.length hcb
            rw [toBits_length, List.length_append] at this
            omega
          have hkl : k ≤ d.length := by omega
          obtain ⟨p, hp⟩ : ∃ p, p = d.take (d.length - k) := ⟨_, rfl⟩
          obtain ⟨t, ht⟩ : ∃ t, t = d.drop (d.length - k) := ⟨_, rfl⟩
          have hpt : d = p ++ t := by rw [hp, ht, List.take_append_drop]
          have htl : t.length = k := by rw [ht, List.length_drop]; omega
          rw [← ht] at h8 hcrc hlen ⊢
          -- the bits left over
          obtain ⟨s, hs⟩ : ∃ s, s = r.take (r.length - 8 * k) := ⟨_, rfl⟩
          have hr : r = s ++ toBits t := by
            have e1 : toBits p ++ toBits t = cb ++ r := by rw [← toBits_append, ← hpt, hcb]
            have e2 : toBits t = r.drop (r.length - 8 * k) := by
              have hl : (toBits p).length = cb.length + (r.length - 8 * k) := by
                have := congrArg List.length e1
                rw [List.length_append, List.length_append, toBits_length t, htl] at this
                omega
              have := congrArg (List.drop (toBits p).length) e1
              rw [List.drop_left' rfl, hl, List.drop_append, List.drop_of_length_le (by omega),
                show cb.length + (r.length - 8 * k) - cb.length = r.length - 8 * k by omega] at this
              simpa using this
            rw [e2, hs, List.take_append_drop]
          have hsl : s.length < 8 := by rw [hs, List.length_take]; omega
          have hcs : toBits p = cb ++ s := by
            have e1 : toBits p ++ toBits t = (cb ++ s) ++ toBits t := by
              rw [← toBits_append, ← hpt, hcb, List.append_assoc, ← hr]
            exact List.append_cancel_right e1
          refine ⟨ch ++ (p ++ t.take 8), ?_, ?_, ?_⟩
          · conv => lhs; rw [hpt]
            simp only [List.append_assoc, List.take_append_drop]
          · intro h0
            have := congrArg List.length h0
            simp only [List.length_append, List.length_take, List.length_nil] at this
            omega
          · intro r'
            have g1 := hch (p ++ (t.take 8 ++ r'))
            have g2 := hloc (s ++ toBits (t.take 8 ++ r')) (by
              rw [hr, List.length_append, List.length_append, toBits_length, toBits_length]; omega)
            rw [← List.append_assoc, ← hcs, ← toBits_append] at g2
            unfold gunzip1
            rw [List.append_assoc, List.append_assoc, g1]
            simp only
            rw [g2]
            simp only [hex]
            have ht8 : (t.take 8).length = 8 := by rw [List.length_take]; omega
            have hdl : (p ++ (t.take 8 ++ r')).length - (s ++ toBits (t.take 8 ++ r')).length / 8 = p.length := by
              have h2 : (s ++ toBits (t.take 8 ++ r')).length / 8 = (t.take 8 ++ r').length := by
                rw [List.length_append, toBits_length]; omega
              rw [h2]; simp only [List.length_append]; omega
            rw [hdl, List.drop_left' rfl]
            have a1 : (t.take 8 ++ r').take 4 = t.take 4 := by
              rw [List.take_append_of_le_length (by omega), List.take_take]; rfl
            have a2 : ((t.take 8 ++ r').drop 4).take 4 = (t.drop 4).take 4 := by
              rw [List.drop_append_of_le_length (by omega), List.take_append_of_le_length (by rw [List.length_drop]; omega),
                List.drop_take, List.take_take]; rfl
            rw [a1, a2, if_pos ⟨by rw [List.length_append]; omega, hcrc, hlen⟩, List.drop_left' ht8]
        · cases h

/-- The decoder finds the member's contents and what follows it. -/
theorem member_gunzip1 {gz data : Bytes} (h : Member gz data) (rest : Bytes) : gunzip1 (gz ++ rest) = some (data, rest) := by
  obtain ⟨xfl, body, ts, r, _, hgz, _, hd, hr, he⟩ := h
  have hh : gzHeader (gz ++ rest) = some (body ++ trailer data ++ rest) := by
    conv => lhs; rw [hgz]
    rw [List.append_assoc, List.append_assoc, aaHead_gzHeader rfl, List.append_assoc]
  exact gunzip1_intro hh hd hr he

theorem member_length {gz data : Bytes} (h : Member gz data) : 32 ≤ gz.length := by
  obtain ⟨xfl, body, ts, r, _, hgz, _⟩ := h
  have := congrArg List.length hgz
  rw [List.length_append, List.length_append, aaHead_length rfl, trailer_length] at this
  omega

/-- The length field of a member. -/
theorem member_readAa {gz data : Bytes} (h : Member gz data) (t : Bytes) (ht : 24 ≤ t.length) (p : Bytes)
    (hp : t ++ p = gz) (q : Bytes) : readAa (t ++ q) (t ++ q).length = .ok (gz.length : Int) := by
  have hml := member_length h
  obtain ⟨xfl, body, ts, r, hx, hgz, h63, _⟩ := h
  have hh : aaHead [0, 0, 0, 0] xfl 3 gz.length = t.take 24 := by
    have h1 : gz.take 24 = t.take 24 := by rw [← hp, List.take_append_of_le_length ht]
    rw [← h1]
    conv => rhs; rw [hgz]
    rw [List.append_assoc, List.take_left' (aaHead_length rfl _ _ _)]
  have hq : t ++ q = aaHead [0, 0, 0, 0] xfl 3 gz.length ++ (t.drop 24 ++ q) := by
    rw [hh, ← List.append_assoc, List.take_append_drop]
  have hl : (t ++ q).length = 24 + (t.drop 24 ++ q).length := by
    rw [hq, List.length_append, aaHead_length rfl]
  obtain ⟨u, hu⟩ : ∃ u, u = t.drop 24 ++ q := ⟨_, rfl⟩
  rw [← hu] at hq hl
  have h16 : (aaHead [0, 0, 0, 0] xfl 3 gz.length ++ u).take 16 =
      [0x1f, 0x8b, 0x08, 0x04, 0, 0, 0, 0, xfl, 3, 0x0c, 0, 0x41, 0x61, 0x08, 0] := by
    unfold aaHead
    rw [List.append_assoc, List.take_left' (by rfl)]
    rfl
  have h8 : ((aaHead [0, 0, 0, 0] xfl 3 gz.length ++ u).drop 16).take 8 = leEnc 8 gz.length := by
    unfold aaHead
    rw [List.append_assoc, List.drop_left' (by rfl), List.take_left' (leEnc_length _ _)]
  unfold readAa goodAa
  rw [hl, hq, h8]
  rw [decide_eq_true (by omega : 16 ≤ 24 + u.length), decide_eq_true (by omega : 24 ≤ 24 + u.length)]
  simp only [h16]
  rw [leDec_leEnc, Nat.mod_eq_of_lt (Nat.lt_trans h63 (by decide)), toInt64_of_lt h63, decide_eq_true (by omega : (0 : Int) < (gz.length : Int))]
  rcases hx with rfl | rfl <;> rfl

end Verif.Inflate

namespace Verif.Rsilo
open Verif Gzip Header Inflate

/-- A page that holds a complete member, and enough of the next one. -/
theorem readHeader_page {ps : Nat} {pfx : Bytes} {rs : Rs} {text rest : Bytes} {h : Hdr} {bl : Int} (hw : rs.whr = .head)
    (hg : gunzip1 (read rs ps) = some (text, rest)) (ht : text.length ≤ ps) (hb : readAa rest rest.length = .ok bl)
    (hp : headerParse pfx (cstr text) = .ok h) :
    readHeader ps pfx rs = .ok (some h, { rs with pos := rs.pos + ((read rs ps).length - rest.length), bodylen := bl, whr := .body }) := by
  have hne : read rs ps ≠ [] := by
    obtain ⟨c, h1, h2, _⟩ := gunzip1_local hg
    rw [h1]; simp [h2]
  unfold readHeader
  rw [decide_eq_true hw]
  simp only [Res.check_true, Res.ok_bind]
  rw [if_neg hne, hg]
  simp only
  rw [decide_eq_true ht, hb, hp]
  rfl

/-- At the end of the file there is no header. -/
theorem readHeader_eof {ps : Nat} {pfx : Bytes} {rs : Rs} (hw : rs.whr = .head) (h : rs.file.length ≤ rs.pos) :
    readHeader ps pfx rs = .ok (none, rs) := by
  unfold readHeader
  rw [decide_eq_true hw]
  simp only [Res.check_true, Res.ok_bind]
  rw [if_pos]
  · rfl
  · unfold read; rw [List.drop_of_length_le h, List.take_nil]

/-- The segment with stored blocks is a member. -/
theorem storedMember_ok (d : Bytes) (h : 37 + 6 * d.length < 2 ^ 63) : Member (storedSegment d) d :=
  ⟨2, d.flatMap storedByte ++ [0x01, 0x00, 0x00, 0xff, 0xff], d.map .lit, [], Or.inl rfl,
    by rw [storedSegment_length]; unfold storedSegment; simp only [List.append_assoc],
    by rw [storedSegment_length]; exact h, deflate_stored (stored_blocks d), by simp, expand_lits d⟩

end Verif.Rsilo
