/-
A compressor that meets the contract for zlib: stored blocks.
-/
import Verif.Spec.Example
import Verif.Spec.Zlib

namespace Verif.Example
open Verif Segjob Inflate Spec

/-- The state: output not delivered yet, all input so far, whether the stream is complete. -/
structure St where
  pending : Bytes
  inp : Bytes
  fin : Bool

/-- How much input is taken: up to half a megabyte, but none as long as much output is held back. -/
def takes (st : St) (avail : Bytes) : Nat := if st.pending.length ≤ 24 ∧ st.fin = false then min avail.length 524288 else 0

def blks : Nat → Bytes → Bytes
  | 0, _ => []
  | n + 1, d => if d = [] then [] else storedBlk 0 (d.take 65535) ++ blks n (d.drop 65535)

/-- The new blocks. -/
def newBlk (d : Bytes) : Bytes := blks 9 d

/-- The end of the stream. -/
def newEnd (old new : Bool) (inp : Bytes) : Bytes := if new = true ∧ old = false then storedBlk 1 [] ++ trailer inp else []

/-- The result. -/
def result (fl : Flush) (fin : Bool) (len space : Nat) : ZRet :=
  if fl = .finish then (if fin = true ∧ len ≤ space then .streamEnd else if space ≤ len then .ok else .other) else .ok

def stDeflate (st : St) (avail : Bytes) (fl : Flush) (space : Nat) : ZStep St :=
  if space = 0 then ⟨st, 0, [], .other⟩
  else
    let d := avail.take (takes st avail)
    let fin := st.fin || decide (fl = .finish ∧ avail.length = takes st avail)
    let p := st.pending ++ newBlk d ++ newEnd st.fin fin (st.inp ++ d)
    ⟨⟨p.drop space, st.inp ++ d, fin⟩, takes st avail, p.take space, result fl fin p.length space⟩

def stored : Deflater St := { init := ⟨aaHead [0, 0, 0, 0] 2 3 0, [], false⟩, deflate := stDeflate, endOk := fun st => st.fin && st.pending.isEmpty }

theorem takes_le (st : St) (avail : Bytes) : takes st avail ≤ avail.length := by
  unfold takes
  split <;> omega

/-- What holds of each state that can be reached. -/
def Good (st : St) (inp out : Bytes) : Prop :=
  st.inp = inp ∧ st.pending.length ≤ (if st.fin then 524370 else 524357) ∧
  ∃ body n, openBlocks n (toBits body) = some (inp.map .lit, []) ∧
    out ++ st.pending = aaHead [0, 0, 0, 0] 2 3 0 ++ body ++ (if st.fin then storedBlk 1 [] ++ trailer inp else [])

theorem blks_nil (n : Nat) : blks n [] = [] := by
  cases n <;> rfl

theorem blks_open : ∀ (n : Nat) (d : Bytes), d.length ≤ n * 65535 → ∃ m, openBlocks m (toBits (blks n d)) = some (d.map .lit, [])
  | 0, d, h => ⟨0, by rw [List.length_eq_zero_iff.1 (show d.length = 0 by omega)]; rfl⟩
  | n + 1, d, h => by
    by_cases h0 : d = []
    · exact ⟨0, by rw [h0, blks_nil]; rfl⟩
    · obtain ⟨m, hm⟩ := blks_open n (d.drop 65535) (by rw [List.length_drop]; omega)
      have h1 := openBlocks_storedBlk (d.take 65535) (by rw [List.length_take]; omega)
      refine ⟨1 + m, ?_⟩
      rw [blks, if_neg h0, show d.map Tok.lit = (d.take 65535).map .lit ++ (d.drop 65535).map .lit by rw [← List.map_append, List.take_append_drop]]
      exact openBlocks_join h1 hm

theorem blks_length : ∀ (n : Nat) (d : Bytes), d.length ≤ n * 65535 → (blks n d).length ≤ d.length + 5 * ((d.length + 65534) / 65535)
  | 0, d, h => by simp [blks]
  | n + 1, d, h => by
    by_cases h0 : d = []
    · rw [h0, blks_nil]; simp
    · have h1 : 1 ≤ d.length := List.length_pos_iff.2 h0
      have hr := blks_length n (d.drop 65535) (by rw [List.length_drop]; omega)
      rw [List.length_drop] at hr
      rw [blks, if_neg h0, List.length_append, storedBlk_length, List.length_take]
      by_cases h2 : d.length ≤ 65535
      · rw [List.drop_of_length_le h2, blks_nil, List.length_nil]
        omega
      · omega

theorem newBlk_open (d : Bytes) (h : d.length ≤ 524288) : ∃ n, openBlocks n (toBits (newBlk d)) = some (d.map .lit, []) := blks_open 9 d (by omega)

theorem newBlk_length (d : Bytes) (h : d.length ≤ 524288) : (newBlk d).length ≤ d.length + 5 * ((d.length + 65534) / 65535) := blks_length 9 d (by omega)

theorem newBlk_nil : newBlk [] = [] := rfl

theorem newEnd_length (a b : Bool) (inp : Bytes) : (newEnd a b inp).length ≤ 13 := by
  unfold newEnd
  split
  · rw [List.length_append, storedBlk_length, trailer_length]; simp
  · simp

theorem good_step {st : St} {inp out : Bytes} (h : Good st inp out) (avail : Bytes) (fl : Flush) (space : Nat) :
    Good (stDeflate st avail fl space).state (inp ++ avail.take (stDeflate st avail fl space).used) (out ++ (stDeflate st avail fl space).out) ∧
    (stDeflate st [] fl space).out.length ≤ 524370 := by
  obtain ⟨h1, h2, body, n, h3, h4⟩ := h
  constructor
  · unfold stDeflate
    by_cases hs : space = 0
    · rw [if_pos hs]
      simp only [List.take_zero, List.append_nil]
      exact ⟨h1, h2, body, n, h3, h4⟩
    · rw [if_neg hs]
      simp only
      obtain ⟨d, hd⟩ : ∃ d, d = avail.take (takes st avail) := ⟨_, rfl⟩
      obtain ⟨fin, hf⟩ : ∃ fin, fin = (st.fin || decide (fl = .finish ∧ avail.length = takes st avail)) := ⟨_, rfl⟩
      rw [← hd, ← hf]
      have hdl : d.length ≤ 524288 := by
        rw [hd, List.length_take]
        unfold takes
        split <;> omega
      have hd0 : 24 < st.pending.length ∨ st.fin = true → d = [] := by
        intro h
        rw [hd]
        unfold takes
        rw [if_neg (by rintro ⟨a, b⟩; rcases h with h | h; · omega
                       · rw [h] at b; cases b)]
        rfl
      obtain ⟨m, hm⟩ := newBlk_open d hdl
      have hbl := newBlk_length d hdl
      have hel := newEnd_length st.fin fin (st.inp ++ d)
      refine ⟨by rw [h1], ?_, body ++ newBlk d, n + m, ?_, ?_⟩
      · simp only [List.length_drop, List.length_append]
        cases hsf : st.fin with
        | true =>
          have hfin : fin = true := by rw [hf, hsf]; rfl
          have : newEnd true fin (st.inp ++ d) = [] := by unfold newEnd; simp
          rw [hsf] at h2
          rw [hd0 (.inr hsf), newBlk_nil]
          rw [hd0 (.inr hsf)] at this
          rw [this, hfin]
          simp only [if_true, List.length_nil] at h2 ⊢
          omega
        | false =>
          rw [hsf] at h2
          simp only [Bool.false_eq_true, if_false] at h2
          by_cases hp : st.pending.length ≤ 24
          · rw [hsf] at hel
            cases fin with
            | true => simp only [if_true]; omega
            | false =>
              have : newEnd false false (st.inp ++ d) = [] := by unfold newEnd; simp
              rw [this]
              simp only [Bool.false_eq_true, if_false, List.length_nil]; omega
          · rw [hd0 (.inl (by omega)), newBlk_nil]
            rw [hsf, hd0 (.inl (by omega))] at hel
            cases fin with
            | true => simp only [if_true, List.length_nil]; omega
            | false =>
              have : newEnd false false (st.inp ++ []) = [] := by unfold newEnd; simp
              rw [this]
              simp only [Bool.false_eq_true, if_false, List.length_nil]; omega
      · rw [List.map_append]
        exact openBlocks_join h3 hm
      · rw [List.append_assoc, List.take_append_drop, List.append_assoc, ← List.append_assoc out, h4, h1]
        cases hsf : st.fin with
        | true =>
          have hfin : fin = true := by rw [hf, hsf]; rfl
          rw [hd0 (.inr hsf), hfin, newBlk_nil]
          have : newEnd true true (inp ++ []) = [] := by unfold newEnd; simp
          rw [this]
          simp
        | false =>
          simp only [Bool.false_eq_true, if_false, List.append_nil]
          cases fin with
          | true =>
            have : newEnd false true (inp ++ d) = storedBlk 1 [] ++ trailer (inp ++ d) := by unfold newEnd; simp
            rw [this]
            simp
          | false =>
            have : newEnd false false (inp ++ d) = [] := by unfold newEnd; simp
            rw [this]
            simp
  · unfold stDeflate
    split
    · simp
    · simp only [List.take_nil, newBlk_nil, List.append_nil, List.length_take, List.length_append]
      rcases hsf : st.fin with _ | _
      · have := newEnd_length false (false || decide (fl = .finish ∧ ([] : Bytes).length = takes st [])) st.inp
        rw [hsf] at h2
        simp only [Bool.false_eq_true, if_false] at h2
        omega
      · have : newEnd true (true || decide (fl = .finish ∧ ([] : Bytes).length = takes st [])) st.inp = [] := by unfold newEnd; simp
        rw [this]
        rw [hsf] at h2
        simp only [if_true] at h2
        simp only [List.length_nil]
        omega

theorem good_reach {st : St} {inp out : Bytes} (h : Reach stored st inp out) : Good st inp out := by
  induction h with
  | start => exact ⟨rfl, by decide, [], 0, rfl, by simp [stored]⟩
  | step avail fl space _ _ ih => exact (good_step ih avail fl space).1

/-- The contract holds for it. -/
theorem stored_zlib : Zlib stored where
  used st inp fl space := by
    show (stDeflate st inp fl space).used ≤ _
    unfold stDeflate
    split
    · simp
    · exact takes_le st inp
  room st inp fl space := by
    show (stDeflate st inp fl space).out.length ≤ _
    unfold stDeflate
    split
    · simp
    · simp only [List.length_take]; omega
  noRoom st inp fl := rfl
  full st inp space h := by
    revert h
    show (stDeflate st inp .finish space).ret = .ok → (stDeflate st inp .finish space).out.length = space
    unfold stDeflate
    split
    · intro h; cases h
    · simp only [result, if_true, List.length_take]
      intro h
      split at h
      · cases h
      · split at h
        · omega
        · cases h
  pending st inp out fl space h := by
    have := (good_step (good_reach h) [] fl space).2
    show (stDeflate st [] fl space).out.length + 25 ≤ 2 ^ 20
    have h20 : 2 ^ 20 = 1048576 := by decide
    omega
  done st inp out sp1 sp2 h h1 h2 h3 := by
    have g1 := good_step (good_reach h) [] .sync sp1
    have g2 := good_step g1.1 [] .finish sp2
    obtain ⟨k1, k2, body, n, k3, k4⟩ := g2.1
    simp only [List.take_nil, List.append_nil] at k1 k2 k3 k4
    revert h3 k4
    show (stDeflate (stDeflate st [] .sync sp1).state [] .finish sp2).ret = .streamEnd →
      (out ++ (stDeflate st [] .sync sp1).out ++ (stDeflate (stDeflate st [] .sync sp1).state [] .finish sp2).out ++
        (stDeflate (stDeflate st [] .sync sp1).state [] .finish sp2).state.pending = _) →
      RawSegment (out ++ (stDeflate st [] .sync sp1).out ++ (stDeflate (stDeflate st [] .sync sp1).state [] .finish sp2).out) inp
    generalize (stDeflate st [] .sync sp1).state = st1
    generalize out ++ (stDeflate st [] .sync sp1).out = out1
    intro h3 k4
    have hfin : (stDeflate st1 [] .finish sp2).state.fin = true ∧ (stDeflate st1 [] .finish sp2).state.pending = [] := by
      revert h3
      unfold stDeflate
      split
      · intro h; cases h
      · simp only [result, if_true]
        intro h
        split at h
        · rename_i h4
          exact ⟨h4.1, List.drop_of_length_le h4.2⟩
        · split at h <;> cases h
    rw [hfin.1, hfin.2, List.append_nil] at k4
    rw [k4]
    refine ⟨2, body, storedBlk 1 [], n, inp.map .lit, .inl rfl, ?_, .inl rfl, k3, expand_lits inp⟩
    simp only [if_true, List.append_assoc]

end Verif.Example
