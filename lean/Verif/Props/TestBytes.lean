/-
Property C53: the test-byte generator.
-/
import Verif.Model.TestBytes

namespace Verif.Props
open Verif TestBytes

/-- Specification: the stream of digests H(0), H(H(0)), ... of which the first `k` are given. -/
def digests (sha : Bytes → Bytes) : Nat → Bytes → Bytes
  | 0, _ => []
  | k + 1, d => sha d ++ digests sha k (sha d)

theorem emit_eq (d : Bytes) (n : Nat) : emit d n = (d.take n, n - d.length) := by
  induction d generalizing n with
  | nil => simp [emit]
  | cons c d ih =>
    rw [emit]
    split
    · rw [ih]
      obtain ⟨m, rfl⟩ : ∃ m, n = m + 1 := ⟨n - 1, by omega⟩
      simp
    · have : n = 0 := by omega
      subst this
      simp

theorem loop_eq (sha : Bytes → Bytes) (hs : ∀ x, (sha x).length = 32) (fuel n : Nat) (d : Bytes) (h : n ≤ fuel) :
    loop sha fuel n d = (digests sha fuel d).take n := by
  induction fuel generalizing n d with
  | zero => simp [loop, digests]
  | succ fuel ih =>
    rw [loop, digests]
    split
    · rw [emit_eq, hs, ih _ _ (by omega), List.take_append, hs]
    · have : n = 0 := by omega
      subst this
      simp

theorem digests_length (sha : Bytes → Bytes) (hs : ∀ x, (sha x).length = 32) (k : Nat) (d : Bytes) :
    (digests sha k d).length = 32 * k := by
  induction k generalizing d with
  | zero => rfl
  | succ k ih => rw [digests, List.length_append, hs, ih]; omega

theorem digests_prefix (sha : Bytes → Bytes) {j k : Nat} (h : j ≤ k) (d : Bytes) : digests sha j d <+: digests sha k d := by
  induction j generalizing k d with
  | zero => exact List.nil_prefix
  | succ j ih =>
    obtain ⟨k', rfl⟩ : ∃ k', k = k' + 1 := ⟨k - 1, by omega⟩
    rw [digests, digests, List.prefix_append_right_inj]
    exact ih (by omega) _

/-- C53: testbytes emits exactly the requested number of bytes, and a shorter request yields a prefix
of a longer one, whatever the 32 byte hash function is. -/
theorem C53_prefix_stable (sha : Bytes → Bytes) (hs : ∀ x, (sha x).length = 32) (m n : Nat) (h : m ≤ n) :
    (testBytes sha n).length = n ∧ testBytes sha m = (testBytes sha n).take m := by
  unfold testBytes
  rw [loop_eq sha hs _ _ _ (Nat.le_refl n), loop_eq sha hs _ _ _ (Nat.le_refl m)]
  constructor
  · rw [List.length_take, digests_length sha hs]; omega
  · rw [List.take_take, Nat.min_eq_left h]
    obtain ⟨t, ht⟩ := digests_prefix sha h (List.replicate 32 0)
    rw [← ht, List.take_append_of_le_length (by rw [digests_length sha hs]; omega)]

/-- C53, contents: the output is the first `n` bytes of the digest chain starting at 32 zero bytes. -/
theorem C53_content (sha : Bytes → Bytes) (hs : ∀ x, (sha x).length = 32) (n k : Nat) (h : n ≤ 32 * k) :
    testBytes sha n = (digests sha k (List.replicate 32 0)).take n := by
  unfold testBytes
  rw [loop_eq sha hs _ _ _ (Nat.le_refl n)]
  by_cases hk : k ≤ n
  · obtain ⟨t, ht⟩ := digests_prefix sha hk (List.replicate 32 0)
    rw [← ht, List.take_append_of_le_length (by rw [digests_length sha hs]; omega)]
  · obtain ⟨t, ht⟩ := digests_prefix sha (show n ≤ k by omega) (List.replicate 32 0)
    rw [← ht, List.take_append_of_le_length (by rw [digests_length sha hs]; omega)]

/-- A "hash" that counts. -/
example :
    let sha : Bytes → Bytes := fun d => List.replicate 32 (d.headD 0 + 1)
    (∀ x, (sha x).length = 32) ∧ testBytes sha 34 = List.replicate 32 1 ++ [2, 2] := by
  refine ⟨fun x => by simp, by decide⟩

end Verif.Props
