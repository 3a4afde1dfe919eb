/-
Property C42: protocol framing.
-/
import Verif.Model.Proto
import Verif.Proofs.Bytes

namespace Verif.Props
open Verif Proto

/-- Write a sequence of messages to a stream. -/
def send : List (Nat × Bytes) → Res Bytes
  | [] => .ok []
  | m :: ms => do
    let a ← protoOut m.1 m.2
    let b ← send ms
    return a ++ b

theorem u8_ofNat_toNat {n : Nat} (h : n < 256) : (UInt8.ofNat n).toNat = n := by
  simp [UInt8.toNat_ofNat']
  omega

/-- One message: what is written is a header that is read back, followed by the payload.  No proper
prefix of the header is a header. -/
theorem protoOut_spec (cmd : Nat) (p : Bytes) (hc : cmd < 8) (hp : p.length < 2 ^ 32) :
    ∃ h : Bytes, protoOut cmd p = .ok (h ++ p) ∧ h ≠ [] ∧ (∀ s, protoIn (h ++ s) = .hdr cmd p.length s) ∧
      (∀ h' t, h = h' ++ t → t ≠ [] → h' ≠ [] → protoIn h' = .err) := by
  unfold protoOut
  rw [decide_eq_true hc]
  simp only [Res.check_true, Res.ok_bind]
  have hpre : ∀ (x : UInt8) (h' t : Bytes), [x] = h' ++ t → t ≠ [] → h' ≠ [] → protoIn h' = .err := by
    intro x h' t he ht hh
    exfalso
    have := congrArg List.length he
    have a := List.length_pos_iff.2 ht
    have b := List.length_pos_iff.2 hh
    simp at this
    omega
  split
  · rename_i h0
    refine ⟨[UInt8.ofNat cmd], by simp [List.length_eq_zero_iff.1 h0], by simp, ?_, hpre _⟩
    intro s
    simp only [List.cons_append, List.nil_append, protoIn, u8_ofNat_toNat (show cmd < 256 by omega)]
    rw [show cmd / 64 = 0 by omega, show cmd % 8 = cmd by omega, h0]
    rfl
  · split
    · rename_i h32
      refine ⟨[UInt8.ofNat (cmd + 64)], rfl, by simp, ?_, hpre _⟩
      intro s
      simp only [List.cons_append, List.nil_append, protoIn, u8_ofNat_toNat (show cmd + 64 < 256 by omega)]
      rw [show (cmd + 64) / 64 = 1 by omega, show (cmd + 64) % 8 = cmd by omega, h32]
      rfl
    · split
      · rename_i hl
        refine ⟨[UInt8.ofNat (cmd + 128), UInt8.ofNat p.length], rfl, by simp, ?_, ?_⟩
        · intro s
          simp only [List.cons_append, List.nil_append, protoIn, u8_ofNat_toNat (show cmd + 128 < 256 by omega)]
          rw [show (cmd + 128) / 64 = 2 by omega, show (cmd + 128) % 8 = cmd by omega]
          simp only [u8_ofNat_toNat hl]
        · intro h' t he ht hh
          cases h' with
          | nil => exact absurd rfl hh
          | cons a h' =>
            simp only [List.cons_append, List.cons.injEq] at he
            cases h' with
            | nil =>
              rw [← he.1]
              simp only [protoIn, u8_ofNat_toNat (show cmd + 128 < 256 by omega)]
              rw [show (cmd + 128) / 64 = 2 by omega]
              rfl
            | cons b h' =>
              exfalso
              have := congrArg List.length he.2
              have a := List.length_pos_iff.2 ht
              simp only [List.length_cons, List.length_nil, List.length_append, List.cons_append] at this
              omega
      · rename_i hl
        refine ⟨UInt8.ofNat (cmd + 192) :: beEnc 4 p.length, rfl, by simp, ?_, ?_⟩
        · intro s
          simp only [beEnc, List.cons_append, List.nil_append, protoIn,
            u8_ofNat_toNat (show cmd + 192 < 256 by omega)]
          rw [show (cmd + 192) / 64 = 3 by omega, show (cmd + 192) % 8 = cmd by omega]
          simp only [InRes.hdr.injEq, true_and, and_true]
          have := beDec_beEnc 4 p.length
          simp only [beEnc] at this
          rw [this]
          omega
        · intro h' t he ht hh
          cases h' with
          | nil => exact absurd rfl hh
          | cons a h' =>
            simp only [List.cons_append, List.cons.injEq] at he
            rw [← he.1]
            have hlen : h'.length < 4 := by
              have := congrArg List.length he.2
              have a := List.length_pos_iff.2 ht
              simp [beEnc] at this
              omega
            simp only [protoIn, u8_ofNat_toNat (show cmd + 192 < 256 by omega)]
            rw [show (cmd + 192) / 64 = 3 by omega]
            match h', hlen with
            | [], _ => rfl
            | [_], _ => rfl
            | [_, _], _ => rfl
            | [_, _, _], _ => rfl

/-- C42, round trip: any sequence of messages with a three-bit command and a payload of less than
4 GiB is read back as the same sequence of commands and payloads, followed by a clean end of file. -/
theorem C42_roundtrip (ms : List (Nat × Bytes)) (h : ∀ m ∈ ms, m.1 < 8 ∧ m.2.length < 2 ^ 32) :
    ∃ s, send ms = .ok s ∧ recv (s.length + 1) s = (ms, .clean) := by
  have key : ∀ (ms : List (Nat × Bytes)), (∀ m ∈ ms, m.1 < 8 ∧ m.2.length < 2 ^ 32) →
      ∃ s, send ms = .ok s ∧ ∀ n, s.length < n → recv n s = (ms, .clean) := by
    intro ms
    induction ms with
    | nil =>
      intro _
      refine ⟨[], rfl, ?_⟩
      intro n hn
      cases n with
      | zero => cases hn
      | succ n => rfl
    | cons m ms ih =>
      intro h
      obtain ⟨hc, hp⟩ := h m (by simp)
      obtain ⟨s, hs, hr⟩ := ih (fun x hx => h x (by simp [hx]))
      obtain ⟨hd, h1, h2, h3, -⟩ := protoOut_spec m.1 m.2 hc hp
      refine ⟨hd ++ m.2 ++ s, by rw [send, h1, hs]; rfl, ?_⟩
      intro n hn
      have := List.length_pos_iff.2 h2
      cases n with
      | zero => simp at hn
      | succ n =>
        rw [recv, List.append_assoc, h3]
        simp only [List.length_append] at hn ⊢
        rw [if_neg (by omega)]
        simp only [List.take_left', List.drop_left']
        rw [hr n (by omega)]
  obtain ⟨s, h1, h2⟩ := key ms h
  exact ⟨s, h1, h2 _ (by omega)⟩

/-- C42, truncation: when the stream is cut anywhere, the messages read from it are the first few of
those sent, unchanged; and if the cut is inside a message this is detected. -/
theorem C42_truncated (ms : List (Nat × Bytes)) (h : ∀ m ∈ ms, m.1 < 8 ∧ m.2.length < 2 ^ 32) (s a b : Bytes)
    (hs : send ms = .ok s) (hab : s = a ++ b) :
    ∃ k e, recv (a.length + 1) a = (ms.take k, e) ∧ e ≠ .more ∧
      (e = .clean ↔ send (ms.take k) = .ok a) := by
  have key : ∀ (ms : List (Nat × Bytes)), (∀ m ∈ ms, m.1 < 8 ∧ m.2.length < 2 ^ 32) → ∀ (s a b : Bytes),
      send ms = .ok s → s = a ++ b → ∀ n, a.length < n →
      ∃ k e, recv n a = (ms.take k, e) ∧ e ≠ .more ∧ (e = .clean ↔ send (ms.take k) = .ok a) := by
    intro ms
    induction ms with
    | nil =>
      intro _ s a b hs hab n hn
      simp only [send, Res.ok.injEq] at hs
      subst hs
      have ha : a = [] := by
        have := congrArg List.length hab
        simp only [List.length_nil, List.length_append] at this
        exact List.length_eq_zero_iff.1 (by omega)
      subst ha
      cases n with
      | zero => cases hn
      | succ n => exact ⟨0, .clean, rfl, by decide, by simp [send]⟩
    | cons m ms ih =>
      intro h s a b hs hab n hn
      obtain ⟨hc, hp⟩ := h m (by simp)
      obtain ⟨hd, h1, h2, h3, h4⟩ := protoOut_spec m.1 m.2 hc hp
      have hdp := List.length_pos_iff.2 h2
      rw [send, h1] at hs
      simp only [Res.ok_bind, Res.bind_eq_ok] at hs
      obtain ⟨s', hs', he⟩ := hs
      simp only [Res.pure_eq, Res.ok.injEq] at he
      cases n with
      | zero => cases hn
      | succ n =>
        by_cases hnil : a = []
        · subst hnil
          exact ⟨0, .clean, rfl, by decide, by simp [send]⟩
        by_cases hlong : (hd ++ m.2).length ≤ a.length
        · -- the whole message is there
          obtain ⟨a', ha'⟩ : ∃ a', a = hd ++ m.2 ++ a' := by
            have e : hd ++ m.2 ++ s' = a ++ b := by rw [he, hab]
            rw [List.append_eq_append_iff] at e
            rcases e with ⟨x, hx, -⟩ | ⟨x, hx, -⟩
            · exact ⟨x, hx⟩
            · have : x = [] := by
                have := congrArg List.length hx
                rw [List.length_append (as := a)] at this
                exact List.length_eq_zero_iff.1 (by omega)
              subst this
              exact ⟨[], by simpa using hx.symm⟩
          subst ha'
          have hab' : s' = a' ++ b := by
            have : hd ++ m.2 ++ s' = hd ++ m.2 ++ (a' ++ b) := by rw [he, hab]; simp
            exact List.append_cancel_left this
          simp only [List.length_append] at hn
          obtain ⟨k, e, r1, r2, r3⟩ := ih (fun x hx => h x (by simp [hx])) s' a' b hs' hab' n (by omega)
          refine ⟨k + 1, e, ?_, r2, ?_⟩
          · rw [recv, List.append_assoc, h3]
            simp only [List.length_append]
            rw [if_neg (by omega)]
            simp only [List.take_left', List.drop_left']
            rw [r1]
            rfl
          · rw [r3, List.take_succ_cons, send, h1]
            simp only [Res.ok_bind, Res.bind_eq_ok, Res.pure_eq, Res.ok.injEq]
            constructor
            · intro hx
              exact ⟨a', hx, rfl⟩
            · rintro ⟨x, hx, hy⟩
              rw [hx, List.append_cancel_left hy]
        · -- cut inside the message
          refine ⟨0, .broken, ?_, by decide, ?_⟩
          · rw [recv]
            by_cases hcut : hd.length ≤ a.length
            · obtain ⟨a', ha'⟩ : ∃ a', a = hd ++ a' := by
                have e : hd ++ (m.2 ++ s') = a ++ b := by rw [← List.append_assoc, he, hab]
                rw [List.append_eq_append_iff] at e
                rcases e with ⟨x, hx, -⟩ | ⟨x, hx, -⟩
                · exact ⟨x, hx⟩
                · have : x = [] := by
                    have := congrArg List.length hx
                    rw [List.length_append] at this
                    exact List.length_eq_zero_iff.1 (by omega)
                  subst this
                  exact ⟨[], by simpa using hx.symm⟩
              subst ha'
              rw [h3]
              simp only [List.length_append] at hlong
              simp only
              rw [if_pos (by omega)]
              simp
            · obtain ⟨t, ht⟩ : ∃ t, hd = a ++ t := by
                have e : hd ++ (m.2 ++ s') = a ++ b := by rw [← List.append_assoc, he, hab]
                rw [List.append_eq_append_iff] at e
                rcases e with ⟨x, hx, -⟩ | ⟨x, hx, -⟩
                · exfalso
                  have := congrArg List.length hx
                  rw [List.length_append] at this
                  omega
                · exact ⟨x, hx⟩
              rw [h4 a t ht (by rintro rfl; rw [ht] at hcut; simp at hcut) hnil]
              simp
          · simp only [List.take_zero, send, Res.ok.injEq, reduceCtorEq, false_iff]
            exact fun e => hnil e.symm
  exact key ms h s a b hs hab _ (by omega)

/-- All four encodings of the length: 0, 32, below 256 and larger. -/
example : (∀ m ∈ [(1, []), (2, List.replicate 32 5), (3, b!"abc"), (0, List.replicate 256 7)],
      m.1 < 8 ∧ m.2.length < 2 ^ 32) ∧
    send [(1, []), (3, b!"abc")] = .ok [1, 131, 3, 97, 98, 99] ∧
    recv 10 [1, 131, 3, 97, 98] = ([(1, [])], .broken) := by
  refine ⟨?_, by decide, by decide⟩
  intro m hm
  simp only [List.mem_cons, List.not_mem_nil, or_false] at hm
  rcases hm with rfl | rfl | rfl | rfl
  · decide
  · decide
  · decide
  · exact ⟨by decide, by rw [List.length_replicate]; decide⟩

/-- A command outside three bits trips an assertion and nothing is written. -/
theorem C42_bad_command (cmd : Nat) (p : Bytes) (h : 8 ≤ cmd) : protoOut cmd p = .fail := by
  unfold protoOut
  rw [decide_eq_false (by omega)]
  rfl

/-- The limit of 4 GiB is needed: a longer payload is announced with its length modulo 2^32. -/
theorem C42_counterexample_long (cmd : Nat) (p : Bytes) (hc : cmd < 8) (hp : 2 ^ 32 ≤ p.length) :
    ∃ s r, protoOut cmd p = .ok s ∧ protoIn s = .hdr cmd (p.length % 2 ^ 32) r ∧ p.length % 2 ^ 32 ≠ p.length := by
  have h32 : (2 : Nat) ^ 32 = 4294967296 := by decide
  refine ⟨UInt8.ofNat (cmd + 192) :: (beEnc 4 p.length ++ p), p, ?_, ?_, ?_⟩
  · unfold protoOut
    rw [decide_eq_true hc]
    simp only [Res.check_true, Res.ok_bind]
    rw [if_neg (by omega), if_neg (by omega), if_neg (by omega)]
  · simp only [beEnc, List.cons_append, List.nil_append, protoIn,
      u8_ofNat_toNat (show cmd + 192 < 256 by omega)]
    rw [show (cmd + 192) / 64 = 3 by omega, show (cmd + 192) % 8 = cmd by omega]
    simp only [InRes.hdr.injEq, true_and, and_true]
    have := beDec_beEnc 4 p.length
    simp only [beEnc] at this
    rw [this]
  · have := Nat.mod_lt p.length (show 0 < 2 ^ 32 by decide)
    omega

end Verif.Props
