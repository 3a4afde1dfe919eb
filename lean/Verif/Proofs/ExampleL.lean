/-
The compressor with stored blocks needs no more room than expected.
-/
import Verif.Proofs.ExampleZ
import Verif.Spec.Live

namespace Verif.Example
open Verif Segjob Inflate Spec

/-- What is held back, an empty block, and the trailer. -/
def stNeed (st : St) : Nat := st.pending.length + 13

theorem st_call {st : St} (hf : st.fin = false) (hp : st.pending.length ≤ 24) {avail : Bytes} (hl : avail.length ≤ 524288) {fl : Flush} (hfl : fl ≠ .finish) {space : Nat}
    (hs : stNeed st + avail.length + 5 * ((avail.length + 65534) / 65535) ≤ space) :
    ∃ out, stDeflate st avail fl space = ⟨⟨[], st.inp ++ avail, false⟩, avail.length, out, .ok⟩ ∧
      out.length ≤ st.pending.length + avail.length + 5 * ((avail.length + 65534) / 65535) := by
  unfold stNeed at hs
  have ht : takes st avail = avail.length := by
    unfold takes
    rw [if_pos ⟨hp, hf⟩]
    omega
  have hb := newBlk_length avail hl
  have he : newEnd false false (st.inp ++ avail) = [] := by unfold newEnd; simp
  refine ⟨st.pending ++ newBlk avail, ?_, by rw [List.length_append]; omega⟩
  unfold stDeflate
  rw [if_neg (by omega)]
  simp only [ht, List.take_length, hfl, false_and, decide_false, Bool.or_false, hf, he, List.append_nil, result, if_false]
  rw [List.drop_of_length_le (by rw [List.length_append]; omega), List.take_of_length_le (by rw [List.length_append]; omega)]

theorem roomy_st {st : St} (h : Roomy stored stNeed st) : st.fin = false ∧ st.pending.length ≤ 24 := by
  induction h with
  | start => exact ⟨rfl, by decide⟩
  | step avail fl space _ h0 hl hfl hs ih =>
    have h1 : 1 ≤ avail.length := List.length_pos_iff.2 h0
    obtain ⟨out, e, -⟩ := st_call ih.1 ih.2 (avail := avail) hl (fl := fl) (by rcases hfl with rfl | rfl <;> decide) (space := space) (by omega)
    show (stDeflate _ _ _ _).state.fin = false ∧ (stDeflate _ _ _ _).state.pending.length ≤ 24
    rw [e]
    exact ⟨rfl, by simp⟩

/-- The contract holds for it. -/
theorem stored_live : Live stored stNeed where
  init := by decide
  feed st avail fl space h h0 hl hfl hs := by
    obtain ⟨h1, h2⟩ := roomy_st h
    have h3 : 1 ≤ avail.length := List.length_pos_iff.2 h0
    obtain ⟨out, e, ho⟩ := st_call h1 h2 (avail := avail) hl (fl := fl) (by rcases hfl with rfl | rfl <;> decide) (space := space) (by omega)
    show (stDeflate _ _ _ _).ret = _ ∧ (stDeflate _ _ _ _).used = _ ∧ (stDeflate _ _ _ _).out.length + stNeed (stDeflate _ _ _ _).state ≤ _ ∧
      stNeed (stDeflate _ _ _ _).state ≤ _
    rw [e]
    refine ⟨rfl, rfl, ?_, ?_⟩
    · simp only [stNeed, List.length_nil]
      omega
    · simp only [stNeed, List.length_nil]
      split <;> omega
  sync st space h hs := by
    obtain ⟨h1, h2⟩ := roomy_st h
    obtain ⟨out, e, ho⟩ := st_call h1 h2 (avail := []) (by simp) (fl := .sync) (by decide) (space := space) (by simp only [List.length_nil]; omega)
    show (stDeflate _ _ _ _).ret = _ ∧ (stDeflate _ _ _ _).out.length + stNeed (stDeflate _ _ _ _).state ≤ _
    rw [e]
    refine ⟨rfl, ?_⟩
    simp only [List.length_nil] at ho
    simp only [stNeed, List.length_nil]
    omega
  finish st space space2 h hs hs2 := by
    obtain ⟨h1, h2⟩ := roomy_st h
    obtain ⟨out, e, ho⟩ := st_call h1 h2 (avail := []) (by simp) (fl := .sync) (by decide) (space := space) (by simp only [List.length_nil]; omega)
    revert hs2
    show stNeed (stDeflate _ _ _ _).state < _ → (stDeflate (stDeflate _ _ _ _).state _ _ _).ret = _ ∧
      (stDeflate (stDeflate _ _ _ _).state _ _ _).out.length ≤ stNeed (stDeflate _ _ _ _).state ∧
      ((stDeflate (stDeflate _ _ _ _).state _ _ _).state.fin && (stDeflate (stDeflate _ _ _ _).state _ _ _).state.pending.isEmpty) = true
    rw [e]
    intro hs2
    simp only [stNeed, List.length_nil] at hs2
    have hb : (storedBlk 1 []).length = 5 := by rw [storedBlk_length]; rfl
    have hne : newEnd false true (st.inp ++ [] ++ []) = storedBlk 1 [] ++ trailer st.inp := by unfold newEnd; simp
    have hlen : (storedBlk 1 [] ++ trailer st.inp).length = 13 := by rw [List.length_append, hb, trailer_length]
    have htk : takes ⟨[], st.inp ++ [], false⟩ [] = 0 := by unfold takes; split <;> rfl
    have hu : stDeflate ⟨[], st.inp ++ [], false⟩ [] .finish space2 = ⟨⟨[], st.inp, true⟩, 0, storedBlk 1 [] ++ trailer st.inp, .streamEnd⟩ := by
      unfold stDeflate
      rw [if_neg (by omega)]
      simp only [htk, newBlk_nil, List.take_nil, List.length_nil, and_self, decide_true, Bool.false_or, List.nil_append, hne, result, if_true, hlen]
      rw [if_pos (by simp only [true_and]; omega), List.drop_of_length_le (by omega), List.take_of_length_le (by omega), List.append_nil, List.append_nil]
    rw [hu]
    refine ⟨rfl, ?_, rfl⟩
    simp only [hlen, stNeed, List.length_nil]
    omega

end Verif.Example
