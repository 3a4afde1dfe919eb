/-
Property C99: what `stevedore` reads of a message when calls of `read(2)` return in part or fail.
-/
import Verif.Model.StevRead

namespace Verif.Props.StevReads
open Verif _root_.Verif.StevRead

theorem put_length {buf b : Bytes} {j : Nat} (h : j + b.length ≤ buf.length) : (put buf j b).length = buf.length := by
  unfold put
  simp only [List.length_append, List.length_take, List.length_drop]
  omega

theorem put_take {buf b : Bytes} {j : Nat} (h : j ≤ buf.length) {n : Nat} (hn : n ≤ b.length) : (put buf j b).take (j + n) = buf.take j ++ b.take n := by
  have h1 : (buf.take j).length = j := by
    rw [List.length_take]
    omega
  unfold put
  rw [List.append_assoc, List.take_append, h1, List.take_append_of_le_length (by omega), List.take_of_length_le (by omega)]
  congr 2
  omega

theorem put_drop {buf b : Bytes} {j : Nat} (h : j ≤ buf.length) {n : Nat} (hn : j + b.length ≤ n) : (put buf j b).drop n = buf.drop n := by
  have h1 : (buf.take j ++ b).length = j + b.length := by
    rw [List.length_append, List.length_take]
    omega
  unfold put
  rw [List.drop_append, h1, List.drop_of_length_le (by omega), List.nil_append, List.drop_drop]
  congr 1
  omega

theorem put_put {buf b c : Bytes} {j : Nat} (h : j ≤ buf.length) {n : Nat} (hn : n ≤ b.length) (hc : b.length ≤ n + c.length) :
    put (put buf j b) (j + n) c = put buf j (b.take n ++ c) := by
  rw [put, put_take h hn, put_drop h (by omega), put, List.length_append, List.length_take]
  simp only [List.append_assoc]
  congr 4
  omega

theorem readLoop_over {size : Nat} (buf : Bytes) (rs : List Rd) {j : Nat} (h : size ≤ j) (s : Bytes) : readLoop size buf rs j s = .ok (.done buf s) := by
  cases rs with
  | nil => rw [readLoop, if_pos h]
  | cons r rs =>
    cases r with
    | error => rw [readLoop, if_pos h]
    | some k => rw [readLoop, if_pos h]

/-- C99: whatever calls of `read(2)` fail or return in part, nothing is written behind the `size` bytes of the message, and what is left in
the pipe is an end of what was there. -/
theorem C99_bounds {size : Nat} (rs : List Rd) : ∀ (buf : Bytes) (j : Nat) (s : Bytes), size ≤ buf.length →
    readLoop size buf rs j s = .ok .eof ∨
    ∃ buf' rest, readLoop size buf rs j s = .ok (.done buf' rest) ∧ buf'.length = buf.length ∧ buf'.drop size = buf.drop size ∧ rest <:+ s := by
  induction rs with
  | nil =>
    intro buf j s hb
    rw [readLoop]
    by_cases h : size ≤ j
    · rw [if_pos h]
      exact .inr ⟨_, _, rfl, rfl, rfl, List.suffix_refl _⟩
    · rw [if_neg h]
      by_cases h2 : s.length < size - j
      · rw [if_pos h2]
        exact .inl rfl
      · rw [if_neg h2, decide_eq_true hb]
        have h3 : (s.take (size - j)).length = size - j := by
          rw [List.length_take]
          omega
        exact .inr ⟨_, _, rfl, put_length (by omega), put_drop (by omega) (by omega), List.drop_suffix _ _⟩
  | cons r rs ih =>
    intro buf j s hb
    by_cases h : size ≤ j
    · rw [readLoop_over _ _ h]
      exact .inr ⟨_, _, rfl, rfl, rfl, List.suffix_refl _⟩
    cases r with
    | error =>
      rw [readLoop, if_neg h]
      exact ih _ _ _ hb
    | some k =>
      rw [readLoop, if_neg h]
      by_cases h2 : s = []
      · rw [if_pos h2]
        exact .inl rfl
      · rw [if_neg h2]
        have h3 : ((s.take (size - j)).take (k + 1)).length ≤ size - j := by
          simp only [List.length_take]
          omega
        generalize (s.take (size - j)).take (k + 1) = b at h3 ⊢
        simp only
        rw [decide_eq_true (by omega : j + b.length ≤ buf.length), Res.access_true, Res.ok_bind]
        rcases ih (put buf j b) ((j + b.length) % 2 ^ 32) (s.drop b.length) (by rw [put_length (by omega)]; exact hb) with e | ⟨buf', rest, e1, e2, e3, e4⟩
        · exact .inl e
        · exact .inr ⟨buf', rest, e1, e2.trans (put_length (by omega)), e3.trans (put_drop (by omega) (by omega)), e4.trans (List.drop_suffix _ _)⟩

/-- C99: if no call fails, however little each of them returns, the rest of the message is read and nothing of the next; or the client has
gone away within the message. -/
theorem C99_read {size : Nat} (hs32 : size < 2 ^ 32) (rs : List Rd) (hr : Rd.error ∉ rs) : ∀ (buf : Bytes) (j : Nat) (s : Bytes), size ≤ buf.length → j < size →
    readLoop size buf rs j s = .ok (if s.length < size - j then .eof else .done (put buf j (s.take (size - j))) (s.drop (size - j))) := by
  induction rs with
  | nil =>
    intro buf j s hb hj
    rw [readLoop, if_neg (by omega)]
    by_cases h2 : s.length < size - j
    · rw [if_pos h2, if_pos h2]
    · rw [if_neg h2, if_neg h2, decide_eq_true hb]
      rfl
  | cons r rs ih =>
    intro buf j s hb hj
    have hr' : Rd.error ∉ rs := fun h => hr (by simp [h])
    cases r with
    | error => exact absurd (by simp) hr
    | some k =>
      rw [readLoop, if_neg (by omega)]
      by_cases h2 : s = []
      · rw [if_pos h2, if_pos (by rw [h2, List.length_nil]; omega)]
      · rw [if_neg h2]
        have hpos : 0 < s.length := List.length_pos_iff.2 h2
        obtain ⟨n, hn⟩ : ∃ n, n = min (k + 1) (min (size - j) s.length) := ⟨_, rfl⟩
        have hb2 : (s.take (size - j)).take (k + 1) = s.take n := by
          rw [List.take_take]
          rcases Nat.lt_or_ge s.length (min (k + 1) (size - j)) with h | h
          · rw [List.take_of_length_le (by omega), List.take_of_length_le (by omega)]
          · congr 1
            omega
        have hl : (s.take n).length = n := by
          rw [List.length_take]
          omega
        simp only [hb2, hl]
        rw [decide_eq_true (by omega), Res.access_true, Res.ok_bind, Nat.mod_eq_of_lt (by omega)]
        by_cases he : j + n = size
        · rw [readLoop_over _ _ (by omega), if_neg (by omega), show size - j = n by omega]
        · rw [ih hr' _ _ _ (by rw [put_length (by omega)]; exact hb) (by omega), List.length_drop]
          by_cases h3 : s.length < size - j
          · rw [if_pos (by omega), if_pos h3]
          · rw [if_neg (by omega), if_neg h3, List.drop_drop]
            have e1 : put (put buf j (s.take n)) (j + n) ((s.drop n).take (size - (j + n))) = put buf j (s.take (size - j)) := by
              rw [put_put (by omega) (by omega) (by omega), List.take_of_length_le (by omega), ← List.take_add]
              congr 2
              omega
            rw [e1]
            congr 3
            omega

example : readLoop 5 (List.replicate 8 0) [.some 0, .some 1, .some 9] 0 b!"helloworld" = .ok (.done (b!"hello" ++ [0, 0, 0]) b!"world") ∧
    readLoop 5 (List.replicate 8 0) [.some 0] 0 b!"hell" = .ok .eof := by decide

/-- C99: if the first call fails, the loop ends: nothing is read, and the message is still in the pipe. -/
theorem C99_first_error {size : Nat} (hs : 0 < size) (hs32 : size < 2 ^ 32) (buf : Bytes) (rs : List Rd) (s : Bytes) :
    readLoop size buf (.error :: rs) 0 s = .ok (.done buf s) := by
  rw [readLoop, if_neg (by omega), readLoop_over _ _ (by omega)]

/-- C99: if a call fails when `n` bytes have been read, the last one of them is lost, and the first byte of the next message is taken for the
last one of this. -/
theorem C99_error {size n : Nat} (hn : 0 < n) (hns : n < size) (hs32 : size < 2 ^ 32) (buf : Bytes) (hb : size ≤ buf.length) (rs : List Rd) (hr : Rd.error ∉ rs)
    (s : Bytes) (hl : size < s.length) :
    readLoop size buf (.some (n - 1) :: .error :: rs) 0 s = .ok (.done (put buf 0 ((s.take (size + 1)).eraseIdx (n - 1))) (s.drop (size + 1))) := by
  have h1 : (s.take (size - 0)).take (n - 1 + 1) = s.take n := by
    rw [List.take_take]
    congr 1
    omega
  have h2 : (s.take n).length = n := by
    rw [List.length_take]
    omega
  have hne : s ≠ [] := by
    intro h
    rw [h, List.length_nil] at hl
    omega
  rw [readLoop, if_neg (by omega), if_neg hne]
  simp only [h1, h2]
  rw [decide_eq_true (by omega), Res.access_true, Res.ok_bind, Nat.zero_add, Nat.mod_eq_of_lt (by omega), readLoop, if_neg (by omega),
    show (n + (2 ^ 32 - 1)) % 2 ^ 32 = n - 1 by omega, C99_read hs32 rs hr _ _ _ (by rw [put_length (by omega)]; exact hb) (by omega), if_neg (by rw [List.length_drop]; omega)]
  have h3 : ((s.drop n).take (size - (n - 1))).length = size - (n - 1) := by
    rw [List.length_take, List.length_drop]
    omega
  have e := put_put (buf := buf) (b := s.take n) (c := (s.drop n).take (size - (n - 1))) (j := 0) (by omega) (n := n - 1) (by omega) (by omega)
  rw [Nat.zero_add] at e
  rw [e, List.drop_drop, show n + (size - (n - 1)) = size + 1 by omega, List.take_take, show min (n - 1) n = n - 1 by omega, List.eraseIdx_eq_take_drop_succ, List.take_take,
    show min (n - 1) (size + 1) = n - 1 by omega, show n - 1 + 1 = n by omega, List.drop_take, show size + 1 - n = size - (n - 1) by omega]

/-- C99: the ID of a message, if no call fails: it goes to the filter job as it is, with a newline. -/
theorem C99_id {idSize size : Nat} (h0 : 0 < size) (h1 : idSize ≤ size) (h2 : size ≤ 64) (rs : List Rd) (hr : Rd.error ∉ rs) (s : Bytes) (hl : size ≤ s.length) :
    filterId idSize size rs s = .ok (.done (s.take size ++ [10, 0] ++ List.replicate (64 - size) 0) (s.drop size)) := by
  have h3 : (s.take size).length = size := by
    rw [List.length_take]
    omega
  rw [filterId, if_neg (by omega), decide_eq_true ⟨h1, h2⟩, Res.check_true, Res.ok_bind, C99_read (by omega) rs hr _ _ _ (by rw [List.length_replicate]; omega) h0,
    if_neg (by omega), Res.ok_bind]
  simp only [Nat.sub_zero]
  have e := put_put (buf := List.replicate 66 (0 : UInt8)) (b := s.take size) (c := [10, 0]) (j := 0) (by omega) (n := size) (by omega) (by rw [h3]; simp)
  rw [Nat.zero_add] at e
  rw [e, List.take_take, Nat.min_self, put, List.take_zero, List.nil_append, List.length_append, h3, List.drop_replicate]
  rw [show 66 - (0 + (size + [(10 : UInt8), 0].length)) = 64 - size by simp]

/-- C99: if the first call fails, the entry of the filter queue is that of an empty message, the mark of the end, whatever the ID is; and
the ID is taken for messages. -/
theorem C99_mark {idSize size : Nat} (h0 : 0 < size) (h1 : idSize ≤ size) (h2 : size ≤ 64) (rs : List Rd) (s : Bytes) :
    ∃ buf, filterId idSize size (.error :: rs) s = .ok (.done buf s) ∧ buf.head? = some 0 := by
  rw [filterId, if_neg (by omega), decide_eq_true ⟨h1, h2⟩, Res.check_true, Res.ok_bind, C99_first_error h0 (by omega)]
  refine ⟨_, rfl, ?_⟩
  obtain ⟨m, rfl⟩ : ∃ m, size = m + 1 := ⟨size - 1, by omega⟩
  rw [put, List.take_replicate, show min (m + 1) 66 = m + 1 by omega, List.replicate_succ]
  rfl

/-- C99: the ID that is looked up need not be the one that the client has sent. -/
theorem C99_counterexample : ∃ (rs : List Rd) (s buf rest : Bytes), s = b!"0123456789abcdef" ++ [0x81, 0x10] ∧
    filterId 16 16 rs s = .ok (.done buf rest) ∧ rest = [0x10] ∧ buf.take 17 = b!"0123456" ++ b!"89abcdef" ++ [0x81, 10] :=
  ⟨[.some 7, .error], _, b!"0123456" ++ b!"89abcdef" ++ [0x81, 10, 0] ++ List.replicate 48 0, _, rfl, by decide +kernel, rfl, by decide +kernel⟩

/-- C99: a message with an unknown command is passed over, if no call fails. -/
theorem C99_skip (rs : List Rd) (hr : Rd.error ∉ rs) : ∀ (size : Nat) (s : Bytes), skipLoop rs size s = s.drop size := by
  induction rs with
  | nil => exact fun _ _ => rfl
  | cons r rs ih =>
    intro size s
    cases r with
    | error => exact absurd (by simp) hr
    | some k =>
      rw [skipLoop]
      by_cases h : size = 0
      · rw [if_pos h, h, List.drop_zero]
      · rw [if_neg h]
        by_cases h2 : s = []
        · rw [if_pos h2, h2, List.drop_nil]
        · rw [if_neg h2]
          simp only
          rw [ih fun h => hr (by simp [h]), List.drop_drop]
          congr 1
          omega

/-- C99: if a call fails, one more byte is passed over, which is the command of the next message. -/
theorem C99_skip_error {size : Nat} (hs : 0 < size) (hs32 : size + 1 < 2 ^ 32) (rs : List Rd) (hr : Rd.error ∉ rs) (s : Bytes) :
    skipLoop (.error :: rs) size s = s.drop (size + 1) := by
  rw [skipLoop, if_neg (by omega), Nat.mod_eq_of_lt hs32, C99_skip rs hr]

example : skipLoop [.some 1, .some 0] 5 b!"helloworld" = b!"world" ∧ skipLoop [.some 1, .error] 5 b!"helloworld" = b!"orld" := by decide

end Verif.Props.StevReads
