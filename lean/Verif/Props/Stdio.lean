/-
Property C98: what `get` writes to a file.
-/
import Verif.Model.Stdio
import Verif.Props.Getjob

namespace Verif.Props.GetOutput
open Verif
open _root_.Verif.Stdio

/-- The bytes of `s` on disk and in the buffer are `d`; of those in the buffer there are at most `size`. -/
def Has (size : Nat) (s : Stream) (d : Bytes) : Prop := s.disk ++ s.buf = d ∧ s.buf.length ≤ size

/-- No call of `write(2)` fails. -/
def Fine (s : Stream) : Prop := Wr.error ∉ s.next

theorem sysWrite_disk (b : Bytes) (s : Stream) : (sysWrite b s).2.disk = s.disk ++ b.take (sysWrite b s).1 ∧ (sysWrite b s).2.buf = s.buf ∧
    (sysWrite b s).1 ≤ b.length ∧ (Fine s → Fine (sysWrite b s).2 ∧ (b ≠ [] → (sysWrite b s).1 ≠ 0)) := by
  unfold sysWrite Fine
  split
  · refine ⟨by simp, rfl, Nat.le_refl _, fun h => ⟨h, fun hb h0 => hb (List.eq_nil_of_length_eq_zero h0)⟩⟩
  · rename_i ws hn
    refine ⟨by simp, rfl, Nat.zero_le _, fun h => absurd ?_ h⟩
    rw [hn]; simp
  · rename_i k ws hn
    refine ⟨?_, rfl, Nat.min_le_right _ _, fun h => ⟨?_, ?_⟩⟩
    · show s.disk ++ b.take (k + 1) = s.disk ++ b.take (min (k + 1) b.length)
      congr 1
      rcases Nat.le_total (k + 1) b.length with hk | hk
      · rw [Nat.min_eq_left hk]
      · rw [Nat.min_eq_right hk, List.take_of_length_le hk, List.take_length]
    · rw [hn] at h
      exact fun hm => h (List.mem_cons_of_mem _ hm)
    · intro hb h0
      have : 0 < b.length := List.length_pos_iff.2 hb
      have h1 : min (k + 1) b.length = 0 := h0
      omega

/-- Flushing keeps the bytes together, and nothing is in the buffer if it succeeds. -/
theorem flush_keeps (fuel : Nat) : ∀ s : Stream, s.buf.length ≤ fuel → (flush fuel s).1.disk ++ (flush fuel s).1.buf = s.disk ++ s.buf ∧
    (flush fuel s).1.buf.length ≤ s.buf.length ∧ ((flush fuel s).2 = true → (flush fuel s).1.buf = []) ∧ (Fine s → Fine (flush fuel s).1 ∧ (flush fuel s).2 = true) := by
  induction fuel with
  | zero =>
    intro s hs
    have : s.buf = [] := List.eq_nil_of_length_eq_zero (by omega)
    exact ⟨rfl, Nat.le_refl _, fun _ => this, fun h => ⟨h, by simp [flush, this]⟩⟩
  | succ fuel ih =>
    intro s hs
    rw [flush]
    by_cases hb : s.buf = []
    · rw [if_pos hb]
      exact ⟨rfl, Nat.le_refl _, fun _ => hb, fun h => ⟨h, rfl⟩⟩
    · rw [if_neg hb]
      obtain ⟨w1, w2, w3, w4⟩ := sysWrite_disk s.buf s
      by_cases h0 : (sysWrite s.buf s).1 = 0
      · simp only [if_pos h0]
        rw [h0, List.take_zero, List.append_nil] at w1
        exact ⟨by rw [w1, w2], by rw [w2]; exact Nat.le_refl _, fun h => absurd h (by simp), fun h => absurd h0 ((w4 h).2 hb)⟩
      · simp only [if_neg h0]
        obtain ⟨i1, i2, i3, i4⟩ := ih { (sysWrite s.buf s).2 with buf := s.buf.drop (sysWrite s.buf s).1 } (by
          simp only [List.length_drop]; omega)
        refine ⟨?_, ?_, i3, fun h => i4 (w4 h).1⟩
        · rw [i1]
          simp only [w1, List.append_assoc, List.take_append_drop]
        · refine Nat.le_trans i2 ?_
          simp only [List.length_drop]
          omega

/-- Writing keeps the bytes together. -/
theorem fwrite_keeps {size : Nat} (hsz : 0 < size) (fuel : Nat) : ∀ (p : Bytes) (s : Stream), s.buf.length ≤ size → 2 * p.length + (if s.buf = [] then 0 else 1) ≤ fuel →
    (∃ q, q <+: p ∧ (fwrite size fuel p s).1.disk ++ (fwrite size fuel p s).1.buf = s.disk ++ s.buf ++ q ∧ ((fwrite size fuel p s).2 = true → q = p)) ∧
    (fwrite size fuel p s).1.buf.length ≤ size ∧ (Fine s → Fine (fwrite size fuel p s).1 ∧ (fwrite size fuel p s).2 = true) := by
  induction fuel with
  | zero =>
    intro p s hs hf
    have : p = [] := List.eq_nil_of_length_eq_zero (by omega)
    subst this
    exact ⟨⟨[], ⟨[], rfl⟩, by simp [fwrite], fun _ => rfl⟩, hs, fun h => ⟨h, rfl⟩⟩
  | succ fuel ih =>
    intro p s hs hf
    rw [fwrite]
    by_cases hp : p = []
    · rw [if_pos hp]
      exact ⟨⟨p, ⟨[], by simp⟩, by simp [hp], fun _ => rfl⟩, hs, fun h => ⟨h, rfl⟩⟩
    rw [if_neg hp]
    have hpl : 0 < p.length := List.length_pos_iff.2 hp
    by_cases hc : s.buf ≠ [] ∧ size - s.buf.length < p.length
    · rw [if_pos hc]
      simp only
      rw [if_neg hc.1] at hf
      obtain ⟨f1, f2, f3, f4⟩ := flush_keeps size { s with buf := s.buf ++ p.take (size - s.buf.length) } (by
        simp only [List.length_append, List.length_take]; omega)
      simp only [List.length_append, List.length_take] at f2
      by_cases hr : (flush size { s with buf := s.buf ++ p.take (size - s.buf.length) }).2 = true
      · rw [if_pos hr]
        obtain ⟨⟨q, q1, q2, q3⟩, i2, i3⟩ := ih (p.drop (size - s.buf.length)) _ (by rw [f3 hr]; exact Nat.zero_le _) (by
          rw [if_pos (f3 hr), List.length_drop]
          omega)
        refine ⟨⟨p.take (size - s.buf.length) ++ q, ?_, ?_, ?_⟩, i2, fun h => i3 (f4 h).1⟩
        · obtain ⟨t, ht⟩ := q1
          exact ⟨t, by rw [List.append_assoc, ht, List.take_append_drop]⟩
        · rw [q2, f1]
          simp only [List.append_assoc]
        · intro h
          rw [q3 h, List.take_append_drop]
      · rw [if_neg hr]
        refine ⟨⟨p.take (size - s.buf.length), List.take_prefix _ _, ?_, fun h => absurd h hr⟩, ?_, fun h => absurd (f4 h).2 hr⟩
        · rw [f1]
          simp only [List.append_assoc]
        · omega
    · rw [if_neg hc]
      by_cases hd : size ≤ p.length
      · rw [if_pos hd]
        have hb : s.buf = [] := by
          by_cases hb : s.buf = []
          · exact hb
          · refine absurd ⟨hb, ?_⟩ hc
            have : 0 < s.buf.length := List.length_pos_iff.2 hb
            omega
        obtain ⟨w1, w2, w3, w4⟩ := sysWrite_disk (p.take size) s
        have hne : p.take size ≠ [] := by
          intro h
          have := congrArg List.length h
          rw [List.length_take, List.length_nil] at this
          omega
        rw [List.length_take] at w3
        simp only
        by_cases h0 : (sysWrite (p.take size) s).1 = 0
        · rw [if_pos h0]
          rw [h0, List.take_zero, List.append_nil] at w1
          exact ⟨⟨[], ⟨p, rfl⟩, by rw [w1, w2, List.append_nil], fun h => absurd h (by simp)⟩, by rw [w2]; exact hs, fun h => absurd h0 ((w4 h).2 hne)⟩
        · rw [if_neg h0]
          obtain ⟨⟨q, q1, q2, q3⟩, i2, i3⟩ := ih (p.drop (sysWrite (p.take size) s).1) (sysWrite (p.take size) s).2 (by rw [w2]; exact hs) (by
            rw [w2, if_pos hb, List.length_drop]
            omega)
          refine ⟨⟨p.take (sysWrite (p.take size) s).1 ++ q, ?_, ?_, ?_⟩, i2, fun h => i3 (w4 h).1⟩
          · obtain ⟨t, ht⟩ := q1
            exact ⟨t, by rw [List.append_assoc, ht, List.take_append_drop]⟩
          · rw [q2, w1, w2, hb, List.take_take, Nat.min_eq_left (by omega)]
            simp only [List.append_nil, List.append_assoc]
          · intro h
            rw [q3 h, List.take_append_drop]
      · rw [if_neg hd]
        refine ⟨⟨p, ⟨[], by simp⟩, by simp only [List.append_assoc], fun _ => rfl⟩, ?_, fun h => ⟨h, rfl⟩⟩
        rw [List.length_append]
        by_cases hb : s.buf = []
        · rw [hb, List.length_nil]; omega
        · have : ¬ size - s.buf.length < p.length := fun h => hc ⟨hb, h⟩
          omega

/-- What is in the file in the end. -/
def _root_.Verif.Stdio.End.disk : End → Bytes
  | .exit d => d
  | .abort d => d
  | .crash => []

theorem getPieces_keeps {size : Nat} (hsz : 0 < size) (ps : List Bytes) : ∀ s : Stream, s.buf.length ≤ size →
    (∃ lost, (getPieces size ps s).disk ++ lost = s.disk ++ s.buf ++ ps.flatten ∧ (∀ d, getPieces size ps s = .exit d → lost.length ≤ size)) ∧
    getPieces size ps s ≠ .crash ∧ (Fine s → getPieces size ps s = .exit (s.disk ++ s.buf ++ ps.flatten)) := by
  induction ps with
  | nil =>
    intro s hs
    obtain ⟨f1, f2, f3, f4⟩ := flush_keeps s.buf.length s (Nat.le_refl _)
    rw [getPieces]
    refine ⟨⟨(flush s.buf.length s).1.buf, ?_, fun d _ => by omega⟩, by simp, fun h => ?_⟩
    · rw [List.flatten_nil, List.append_nil, ← f1]
      rfl
    · rw [f3 (f4 h).2, List.append_nil] at f1
      rw [f1, List.flatten_nil, List.append_nil]
  | cons p ps ih =>
    intro s hs
    obtain ⟨⟨q, ⟨t, q1⟩, q2, q3⟩, w2, w3⟩ := fwrite_keeps hsz (2 * p.length + 1) p s hs (by split <;> omega)
    rw [getPieces]
    by_cases hr : (fwrite size (2 * p.length + 1) p s).2 = true
    · rw [if_pos hr]
      obtain ⟨⟨lost, l1, l2⟩, i2, i3⟩ := ih _ w2
      rw [q2, q3 hr] at l1 i3
      refine ⟨⟨lost, ?_, l2⟩, i2, fun h => ?_⟩
      · rw [l1, List.flatten_cons]
        simp only [List.append_assoc]
      · rw [i3 (w3 h).1, List.flatten_cons]
        simp only [List.append_assoc]
    · rw [if_neg hr]
      refine ⟨⟨(fwrite size (2 * p.length + 1) p s).1.buf ++ (t ++ ps.flatten), ?_, fun d hd => by cases hd⟩, by simp, fun h => absurd (w3 h).2 hr⟩
      show (fwrite size (2 * p.length + 1) p s).1.disk ++ _ = _
      rw [← List.append_assoc, q2, List.flatten_cons, ← q1]
      simp only [List.append_assoc]

/-- C98: whatever calls of `write(2)` fail or write in part, what is in the file is the beginning of the object; and if `get` ends with
status 0 at most the last `size` bytes are missing, where `size` is that of the buffer of the stream. -/
theorem C98_written_partial {size : Nat} (hsz : 0 < size) (next : List Wr) (pieces : List Bytes) :
    (getOutput size true next pieces).disk <+: pieces.flatten ∧
    ∀ d, getOutput size true next pieces = .exit d → ∃ lost, d ++ lost = pieces.flatten ∧ lost.length ≤ size := by
  obtain ⟨⟨lost, h1, h2⟩, -, -⟩ := getPieces_keeps hsz pieces { disk := [], buf := [], next := next } (Nat.zero_le _)
  refine ⟨⟨lost, h1⟩, fun d hd => ⟨lost, ?_, h2 d hd⟩⟩
  have hd' : getPieces size pieces { disk := [], buf := [], next := next } = .exit d := hd
  rw [hd'] at h1
  exact h1

/-- C98: if no call of `write(2)` fails, although they may write in part, the file has the object and the status is 0. -/
theorem C98_fine {size : Nat} (hsz : 0 < size) (next : List Wr) (hn : Wr.error ∉ next) (pieces : List Bytes) :
    getOutput size true next pieces = .exit pieces.flatten :=
  (getPieces_keeps hsz pieces { disk := [], buf := [], next := next } (Nat.zero_le _)).2.2 hn

/-- Pieces larger than the buffer, smaller ones, writes in part, an error in between. -/
example : getOutput 4 true [.some 0, .some 1, .some 9] [b!"he", b!"llo and", b!" goodbye"] = .exit b!"hello and goodbye" ∧
    getOutput 4 true [.some 9, .error] [b!"he", b!"llo and", b!" goodbye"] = .abort b!"hell" := by decide

/-- C98: status 0 does not say that the file has the object: on a full disk an object smaller than the buffer is lost completely, and
`get` ends with status 0. -/
theorem C98_counterexample_full : ∃ (size : Nat) (next : List Wr) (pieces : List Bytes), pieces.flatten = b!"hello" ∧ size = 4096 ∧
    getOutput size true next pieces = .exit [] :=
  ⟨4096, [.error], [b!"hello"], by decide, rfl, by decide +kernel⟩

/-- C98: so is every object that goes into the buffer, whatever its pieces are. -/
theorem C98_lost {size : Nat} (pieces : List Bytes) (h : pieces.flatten.length < size) (h0 : pieces.flatten ≠ []) (next : List Wr) :
    getOutput size true (.error :: next) pieces = .exit [] := by
  have key : ∀ (ps : List Bytes) (b : Bytes), (b ++ ps.flatten).length < size → b ++ ps.flatten ≠ [] →
      getPieces size ps { disk := [], buf := b, next := .error :: next } = .exit [] := by
    intro ps
    induction ps with
    | nil =>
      intro b _ hb
      rw [List.flatten_nil, List.append_nil] at hb
      obtain ⟨c, l, e⟩ := List.exists_cons_of_ne_nil hb
      subst e
      rw [getPieces]
      simp [flush, sysWrite]
    | cons p ps ih =>
      intro b hl hb
      rw [List.flatten_cons] at hl hb
      have hw : fwrite size (2 * p.length + 1) p { disk := [], buf := b, next := .error :: next } = ({ disk := [], buf := b ++ p, next := .error :: next }, true) := by
        rw [fwrite]
        simp only [List.length_append] at hl
        by_cases hp : p = []
        · rw [if_pos hp, hp, List.append_nil]
        · rw [if_neg hp, if_neg (by simp only; omega), if_neg (by omega)]
      rw [getPieces, hw]
      simp only [if_true]
      exact ih (b ++ p) (by rw [List.append_assoc]; exact hl) (by rw [List.append_assoc]; exact hb)
  exact key pieces [] h h0

/-- C98: if the file cannot be opened, `get` crashes, unless it only prints headers. -/
theorem C98_no_file (size : Nat) (next : List Wr) (pieces : List Bytes) (h : pieces ≠ []) : getOutput size false next pieces = .crash := by
  rw [getOutput, if_pos rfl, if_neg h]

example : getOutput 4096 false [] [b!"hello"] = .crash := by decide

theorem deliver_pieces (size : Nat) (ps : List Bytes) : ∀ s : Stream × Bool, ∃ r : Stream × Bool, Rsilo.deliver (fun s d => .ok (getIter size s d)) ps s = .ok (r, true) ∧
    (s.2 = false → r = s) ∧ (s.2 = true → getPieces size ps s.1 = if r.2 then .exit (flush r.1.buf.length r.1).1.disk else .abort r.1.disk) := by
  induction ps with
  | nil => exact fun s => ⟨s, rfl, fun _ => rfl, fun h => by rw [h, if_pos rfl, getPieces]⟩
  | cons p ps ih =>
    intro s
    obtain ⟨r, r1, r2, r3⟩ := ih (getIter size s p).1
    have hret : (getIter size s p).2 = 0 := by unfold getIter; split <;> rfl
    refine ⟨r, ?_, fun h => ?_, fun h => ?_⟩
    · rw [Rsilo.deliver]
      simp only [Res.ok_bind]
      rw [hret]
      exact r1
    · have : getIter size s p = (s, 0) := by unfold getIter; rw [if_neg (by rw [h]; decide)]
      rw [this] at r2
      exact r2 h
    · have hg : getIter size s p = (fwrite size (2 * p.length + 1) p s.1, 0) := by unfold getIter; rw [if_pos h]
      rw [hg] at r2 r3
      rw [getPieces]
      by_cases hw : (fwrite size (2 * p.length + 1) p s.1).2 = true
      · rw [if_pos hw]
        exact r3 hw
      · rw [if_neg hw, r2 (by simpa using hw), if_neg hw]

/-- C98: for every object that can be got: if no call of `write(2)` fails, the file has the object in the end; if `get` ends with
status 0 although some fail, then the file has the beginning of it, and at most the last `size` bytes are missing. -/
theorem C98_get_partial {ps : Nat} {pfx : Bytes} {idSize : Nat} {w : Wsilo.World} {A : List Spec.Item} {id q : Bytes} {x : Spec.Item} {ys : List Spec.Item} {fuel : Nat}
    (hg : Gettable ps pfx idSize w A id x ys) (hq : Index.idxValidId pfx idSize q = .ok id) (hfuel : ys.length < fuel) {size : Nat} (hsz : 0 < size) :
    ∃ gj, Getjob.getjobNew ps pfx idSize fuel w q = .ok (.job gj) ∧ ∀ cut : Bytes → List Bytes, (∀ b, (cut b).flatten = b) → ∀ next : List Wr,
      ∃ e, getFile ps cut gj false size next = .ok e ∧ e.disk <+: ((x :: ys).map (·.record.data)).flatten ∧
        (Wr.error ∉ next → e = .exit ((x :: ys).map (·.record.data)).flatten) ∧
        ∀ d, e = .exit d → ∃ lost, d ++ lost = ((x :: ys).map (·.record.data)).flatten ∧ lost.length ≤ size := by
  obtain ⟨gj, g1, -, -, g2⟩ := C33_get_partial hg hq hfuel
  refine ⟨gj, g1, fun cut hcut next => ?_⟩
  obtain ⟨r, r1, -, r3⟩ := deliver_pieces size ((x :: ys).flatMap fun x => cut x.record.data) ({ disk := [], buf := [], next := next }, true)
  have hflat : ((x :: ys).flatMap fun x => cut x.record.data).flatten = ((x :: ys).map (·.record.data)).flatten := by
    generalize x :: ys = l
    induction l with
    | nil => rfl
    | cons a l ih => rw [List.flatMap_cons, List.flatten_append, ih, hcut, List.map_cons, List.flatten_cons]
  have hfile : getFile ps cut gj false size next = .ok (getOutput size true next ((x :: ys).flatMap fun x => cut x.record.data)) := by
    unfold getFile
    rw [g2, r1]
    simp only [Res.ok_bind, Res.pure_eq]
    congr 1
    exact (r3 rfl).symm
  obtain ⟨h1, h2⟩ := C98_written_partial hsz next ((x :: ys).flatMap fun x => cut x.record.data)
  rw [hflat] at h1 h2
  exact ⟨_, hfile, h1, fun hn => by rw [C98_fine hsz next hn, hflat], h2⟩

end Verif.Props.GetOutput
