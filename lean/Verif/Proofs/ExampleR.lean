/-
The compressor with stored blocks meets the contract of `rebuild`.
-/
import Verif.Proofs.ExampleZ
import Verif.Spec.Refill

namespace Verif.Example
open Verif Segjob Inflate Spec

/-- What holds of each state in `rebuild`. -/
structure Tidy (st : St) (inp out : Bytes) : Prop where
  good : Good st inp out
  fin : st.fin = false
  pending : st.pending.length ≤ 24
  size : out.length + st.pending.length ≤ 24 + 6 * inp.length

theorem tidy_takes {st : St} {inp out : Bytes} (h : Tidy st inp out) {avail : Bytes} (hl : avail.length < 65536) : takes st avail = avail.length := by
  unfold takes
  rw [if_pos ⟨h.pending, h.fin⟩]
  omega

/-- One call, with or without flush: everything is taken, and everything comes out. -/
theorem tidy_call {st : St} {inp out : Bytes} (h : Tidy st inp out) {avail : Bytes} (hl : avail.length < 65536) {fl : Flush} (hf : fl ≠ .finish) {m : Nat} (hm : 131072 ≤ m) :
    (stDeflate st avail fl m).ret = .ok ∧ (stDeflate st avail fl m).used = avail.length ∧ (stDeflate st avail fl m).state.pending = [] ∧
    (stDeflate st avail fl m).state.fin = false ∧ (stDeflate st avail fl m).out.length ≤ st.pending.length + avail.length + (if avail = [] then 0 else 5) ∧
    (stDeflate st avail fl m).out.length < 65600 ∧
    Good (stDeflate st avail fl m).state (inp ++ avail) (out ++ (stDeflate st avail fl m).out) := by
  have hg := (good_step h.good avail fl m).1
  have ht := tidy_takes h hl
  have hp := h.pending
  have hfin := h.fin
  have hu : (stDeflate st avail fl m).used = avail.length := by
    unfold stDeflate
    rw [if_neg (by omega)]
    exact ht
  rw [hu, List.take_length] at hg
  have hb : (newBlk avail).length ≤ avail.length + (if avail = [] then 0 else 5) := by
    split
    · rename_i h0; rw [h0, newBlk_nil]; simp
    · have := newBlk_length avail (by omega)
      omega
  have hb5 : (if avail = [] then 0 else 5) ≤ 5 := by split <;> omega
  refine ⟨?_, hu, ?_, ?_, ?_, ?_, hg⟩
  all_goals
    unfold stDeflate
    rw [if_neg (by omega)]
    simp only [ht, List.take_length, hf, false_and, decide_false, Bool.or_false, result, if_false, hfin]
  · have : newEnd false false (st.inp ++ avail) = [] := by unfold newEnd; simp
    rw [this]
    apply List.drop_of_length_le
    simp only [List.length_append, List.length_nil]
    omega
  · have : newEnd false false (st.inp ++ avail) = [] := by unfold newEnd; simp
    rw [this]
    simp only [List.length_take, List.length_append, List.length_nil]
    omega
  · have : newEnd false false (st.inp ++ avail) = [] := by unfold newEnd; simp
    rw [this]
    simp only [List.length_take, List.length_append, List.length_nil]
    omega

theorem fed_tidy {st : St} {inp out : Bytes} (h : Fed stored 65536 131072 st inp out) : Tidy st inp out := by
  induction h with
  | start => exact ⟨⟨rfl, by decide, [], 0, rfl, by simp [stored]⟩, rfl, by decide, by decide⟩
  | step avail _ h0 hl ih =>
    obtain ⟨-, -, h3, h4, h5, -, h7⟩ := tidy_call ih hl (fl := .none) (by decide) (Nat.le_refl 131072)
    have hs := ih.size
    rw [if_neg h0] at h5
    have h1 : 1 ≤ avail.length := List.length_pos_iff.2 h0
    refine ⟨h7, h4, ?_, ?_⟩
    · show (stDeflate _ _ _ _).state.pending.length ≤ 24
      rw [h3]; simp
    · show (_ ++ (stDeflate _ _ _ _).out).length + (stDeflate _ _ _ _).state.pending.length ≤ _
      rw [h3]
      simp only [List.length_append, List.length_nil]
      omega

/-- The contract holds for it. -/
theorem stored_refill : Refill stored 65536 131072 where
  feed st inp out avail h _ hl := (tidy_call (fed_tidy h) hl (fl := .none) (by decide) (Nat.le_refl 131072)).1
  sync st inp out avail h hl := (tidy_call (fed_tidy h) hl (fl := .sync) (by decide) (Nat.le_refl 131072)).1
  last st inp out avail z y h hl hz hy := by
    have ht := fed_tidy h
    obtain ⟨-, h2, h3, h4, h5, h6, h7⟩ := tidy_call ht hl (fl := .sync) (by decide) (Nat.le_refl 131072)
    have hz' : z = stDeflate st avail .sync 131072 := hz
    rw [← hz'] at h2 h3 h4 h5 h6 h7
    rw [h2, List.drop_length] at hy
    have hg := (good_step h7 [] .finish (131072 - z.out.length)).1
    have hu : (stDeflate z.state [] .finish (131072 - z.out.length)) =
        ⟨⟨[], z.state.inp, true⟩, 0, storedBlk 1 [] ++ trailer z.state.inp, .streamEnd⟩ := by
      unfold stDeflate
      rw [if_neg (by omega)]
      have htk : takes z.state [] = 0 := by unfold takes; split <;> rfl
      have hb : (storedBlk 1 []).length = 5 := by rw [storedBlk_length]; rfl
      have hne : newEnd false true (z.state.inp ++ []) = storedBlk 1 [] ++ trailer z.state.inp := by unfold newEnd; simp
      have hlen : (storedBlk 1 [] ++ trailer z.state.inp).length = 13 := by rw [List.length_append, hb, trailer_length]
      simp only [htk, h3, h4, newBlk_nil, List.take_nil, List.length_nil, and_self, decide_true, Bool.false_or, List.nil_append, hne, result, if_true, hlen]
      rw [if_pos (by simp only [true_and]; omega), List.drop_of_length_le (by omega), List.take_of_length_le (by omega), List.append_nil]
    have hy' : y = stDeflate z.state [] .finish (131072 - z.out.length) := hy
    rw [← hy'] at hg hu
    obtain ⟨k1, -, body, n, k3, k4⟩ := hg
    rw [hu] at k1 k3 k4 ⊢
    simp only [List.take_nil, List.append_nil, if_true] at k1 k3 k4
    refine ⟨rfl, rfl, ?_, ?_⟩
    · rw [k4]
      refine ⟨2, body, storedBlk 1 [], n, (inp ++ avail).map .lit, .inl rfl, ?_, .inl rfl, k3, expand_lits _⟩
      simp only [List.append_assoc]
    · have hs := ht.size
      have hb : (storedBlk 1 []).length = 5 := by rw [storedBlk_length]; rfl
      have h20 : 2 ^ 20 = 1048576 := by decide
      have hb5 : (if avail = [] then 0 else 5) ≤ 5 := by split <;> omega
      simp only [List.length_append, hb, trailer_length, h20]
      omega

end Verif.Example
