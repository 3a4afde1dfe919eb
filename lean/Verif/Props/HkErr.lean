/-
C90: errors in housekeeping and in lookups.
-/
import Verif.Model.HkErr
import Verif.Props.Index
import Verif.Proofs.TornIndex
import Mathlib.Tactic.Tauto

namespace Verif.Props
open Verif Index Spec HkErr

/-! ### Without errors -/

/-- No call fails, and reads are not short. -/
structure NoFaults (f : Faults) (size : Nat) : Prop where
  hold : f.hold = false
  mem : f.mem = false
  link : ∀ k, (f.att k).link = false
  unlinkA : ∀ k, (f.att k).unlinkA = false
  openH : ∀ k, (f.att k).openH = false
  read : ∀ k i, ∃ m, (f.att k).read i = .upto m ∧ size ≤ m
  old : ∀ k i, (f.att k).old i = .fine
  tmp : ∀ k i, (f.att k).tmp i = false
  unlinkH : ∀ k, (f.att k).unlinkH = false

theorem mergeReads_chunks {a : Att} {size : Nat} (h0 : 0 < size) (hr : ∀ i, ∃ m, a.read i = .upto m ∧ size ≤ m) (ho : ∀ i, a.old i = .fine)
    (ht : ∀ i, a.tmp i = false) (fuel : Nat) : ∀ (fc k : Nat) (rest : Bytes) (s : Option Bytes), rest.length < fuel → rest.length ≤ fc →
    match mergeChunks (chunksAux size fc rest) s with
    | .ok s' => mergeReads a size fuel k rest s = (s', .eof)
    | _ => (mergeReads a size fuel k rest s).2 = .abort := by
  induction fuel with
  | zero => intro fc k rest s h; omega
  | succ fuel ih =>
    intro fc k rest s hf hc
    obtain ⟨m, hm, hmm⟩ := hr k
    unfold mergeReads
    simp only [hm, Nat.min_eq_right hmm]
    cases hrest : rest with
    | nil =>
      have : chunksAux size fc [] = [] := by cases fc <;> simp [chunksAux]
      rw [this]
      simp [mergeChunks]
    | cons x xs =>
      have hne : rest ≠ [] := by rw [hrest]; simp
      have hl : 0 < rest.length := List.length_pos_iff.2 hne
      obtain ⟨fc, rfl⟩ : ∃ q, fc = q + 1 := ⟨fc - 1, by omega⟩
      rw [← hrest]
      have hcne : rest.take size ≠ [] := by
        intro h
        have := congrArg List.length h
        simp only [List.length_take, List.length_nil] at this
        omega
      rw [if_neg hcne]
      simp only [chunksAux, if_neg hne, mergeChunks]
      unfold mergePart
      by_cases h32 : (rest.take size).length % 32 = 0
      · rw [if_neg (Classical.not_not.2 h32), if_neg (by rw [ht]; decide)]
        simp only [h32, decide_true, Res.check_true, Res.ok_bind, ho, mergeErr]
        cases hi : idxMerge s (qsortRecs (chunksOf 32 (rest.take size))) with
        | fail => rfl
        | ub => rfl
        | ok F =>
          simp only [Res.ok_bind]
          by_cases hfull : (rest.take size).length = size
          · rw [if_pos hfull, hfull]
            exact ih fc (k + 1) (rest.drop size) (some F) (by rw [List.length_drop]; omega) (by rw [List.length_drop]; omega)
          · rw [if_neg hfull]
            have : rest.drop size = [] := by
              rw [List.drop_eq_nil_iff]
              rw [List.length_take] at hfull
              omega
            rw [this]
            have : chunksAux size fc [] = [] := by cases fc <;> simp [chunksAux]
            rw [this]
            rfl
      · rw [if_pos h32]
        have : decide ((rest.take size).length % 32 = 0) = false := decide_eq_false h32
        rw [this]
        rfl

theorem attemptErr_plain {f : Faults} {size : Nat} (h0 : 0 < size) (hf : NoFaults f size) (k : Nat) (d : Dir) :
    match attemptMerge size d with
    | .ok (d', i) => attemptErr (f.att k) size d = (d', .ret i false)
    | _ => (attemptErr (f.att k) size d).2 = .abort := by
  obtain ⟨ds, da, dh, hold⟩ := d
  unfold attemptErr attemptMerge
  simp only [hf.link, hf.unlinkA, Bool.false_eq_true, if_false]
  cases da with
  | none => rfl
  | some x =>
    cases dh with
    | none =>
      have := mergeReads_chunks h0 (hf.read k) (hf.old k) (hf.tmp k) (x.length + 1) x.length 0 x ds (by omega) (Nat.le_refl _)
      simp only [attemptRest, hf.openH, hf.unlinkH, Bool.false_eq_true, if_false]
      unfold chunksOf
      cases hm : mergeChunks (chunksAux size x.length x) ds with
      | ok s' =>
        rw [hm] at this
        simp only [Res.ok_bind, Res.pure_eq] at this ⊢
        rw [this]
      | fail =>
        rw [hm] at this
        simp only [Res.fail_bind] at this ⊢
        rw [this]
      | ub =>
        rw [hm] at this
        simp only [Res.ub_bind] at this ⊢
        rw [this]
    | some x' =>
      have := mergeReads_chunks h0 (hf.read k) (hf.old k) (hf.tmp k) (x'.length + 1) x'.length 0 x' ds (by omega) (Nat.le_refl _)
      simp only [attemptRest, hf.openH, hf.unlinkH, Bool.false_eq_true, if_false]
      unfold chunksOf
      cases hm : mergeChunks (chunksAux size x'.length x') ds with
      | ok s' =>
        rw [hm] at this
        simp only [Res.ok_bind, Res.pure_eq] at this ⊢
        rw [this]
      | fail =>
        rw [hm] at this
        simp only [Res.fail_bind] at this ⊢
        rw [this]
      | ub =>
        rw [hm] at this
        simp only [Res.ub_bind] at this ⊢
        rw [this]

theorem loopErr_plain {f : Faults} {size : Nat} (h0 : 0 < size) (hf : NoFaults f size) (fuel : Nat) : ∀ (k : Nat) (d : Dir),
    match resortLoop size fuel d with
    | .ok d' => loopErr f size fuel k d = (d', some false)
    | _ => (loopErr f size fuel k d).2 = none := by
  induction fuel with
  | zero => intro k d; rfl
  | succ fuel ih =>
    intro k d
    have ha := attemptErr_plain h0 hf k d
    unfold resortLoop loopErr
    cases hm : attemptMerge size d with
    | ok p =>
      obtain ⟨d', i⟩ := p
      rw [hm] at ha
      simp only [Res.ok_bind] at ha ⊢
      rw [ha]
      by_cases hi : i > 0
      · simp only [if_pos hi]
        exact ih (k + 1) d'
      · simp only [if_neg hi, Res.pure_eq]
    | fail =>
      rw [hm] at ha
      simp only [Res.fail_bind] at ha ⊢
      generalize attemptErr (f.att k) size d = q at ha
      obtain ⟨d', r⟩ := q
      simp only at ha
      subst ha
      rfl
    | ub =>
      rw [hm] at ha
      simp only [Res.ub_bind] at ha ⊢
      generalize attemptErr (f.att k) size d = q at ha
      obtain ⟨d', r⟩ := q
      simp only at ha
      subst ha
      rfl

theorem attemptMerge_hold {size : Nat} {d d' : Dir} {i : Int} (h : attemptMerge size d = .ok (d', i)) : d'.hold = d.hold := by
  unfold attemptMerge at h
  obtain ⟨ds, da, dh, hold⟩ := d
  cases da with
  | none => cases h; rfl
  | some x =>
    cases dh <;>
    · simp only [Res.bind_eq_ok, Res.pure_eq, Res.ok.injEq, Prod.mk.injEq] at h
      obtain ⟨s, -, rfl, -⟩ := h
      rfl

theorem resortLoop_hold {size : Nat} (fuel : Nat) : ∀ {d d' : Dir}, resortLoop size fuel d = .ok d' → d'.hold = d.hold := by
  induction fuel with
  | zero => intro d d' h; cases h
  | succ fuel ih =>
    intro d d' h
    unfold resortLoop at h
    rw [Res.bind_eq_ok] at h
    obtain ⟨⟨d1, i⟩, h1, h2⟩ := h
    simp only at h2
    have := attemptMerge_hold h1
    split at h2
    · rw [ih h2, this]
    · cases h2; exact this

/-- C90: if no call fails, and no read is short, housekeeping is that of the other theorems (C05 to C10). -/
theorem C90_refines {f : Faults} {size : Nat} (h0 : 0 < size) (hf : NoFaults f size) (d d' : Dir) :
    resortErr f size d = (d', .done) ↔ idxResort size d = .ok d' := by
  unfold resortErr idxResort
  simp only [hf.hold, hf.mem, true_and, Bool.false_eq_true, if_false]
  by_cases hd : d.hold = true
  · simp only [hd, if_true, Prod.mk.injEq, and_true, Res.ok.injEq]
  · simp only [Bool.not_eq_true] at hd
    simp only [hd, Bool.false_eq_true, if_false]
    have hl := loopErr_plain h0 hf 2 0 { d with hold := true }
    cases hm : resortLoop size 2 { d with hold := true } with
    | ok d1 =>
      rw [hm] at hl
      simp only at hl
      have hh := resortLoop_hold 2 hm
      simp only at hh
      rw [hl]
      simp only [finish, hh, if_true, hf.hold, Bool.false_eq_true, if_false, Res.ok_bind, Res.pure_eq, Prod.mk.injEq, and_true, Res.ok.injEq]
    | fail =>
      rw [hm] at hl
      simp only at hl
      generalize loopErr f size 2 0 { d with hold := true } = q at hl
      obtain ⟨d1, o⟩ := q
      simp only at hl
      subst hl
      simp
    | ub =>
      rw [hm] at hl
      simp only at hl
      generalize loopErr f size 2 0 { d with hold := true } = q at hl
      obtain ⟨d1, o⟩ := q
      simp only at hl
      subst hl
      simp

/-! ### With errors -/

/-- The calls that open and read the index files succeed or are noticed: `index.sorted` can be opened and read, and reads of the
snapshot fail or are not short.  All other calls may fail. -/
structure Noticed (f : Faults) (size : Nat) : Prop where
  read : ∀ k i, (f.att k).read i = .err ∨ ∃ m, (f.att k).read i = .upto m ∧ size ≤ m
  old : ∀ k i, (f.att k).old i = .fine

theorem flatten_take (m : Nat) : ∀ hs : List Bytes, Len32 hs → hs.flatten.take (32 * m) = (hs.take m).flatten ∧ hs.flatten.drop (32 * m) = (hs.drop m).flatten := by
  induction m with
  | zero => intro hs _; simp
  | succ m ih =>
    intro hs hl
    cases hs with
    | nil => simp
    | cons r rs =>
      have hr := hl r (by simp)
      obtain ⟨i1, i2⟩ := ih rs (fun x hx => hl x (by simp [hx]))
      have e : 32 * (m + 1) = r.length + 32 * m := by omega
      rw [List.flatten_cons, List.take_succ_cons, List.drop_succ_cons, List.flatten_cons, e, List.take_length_add_append, List.drop_length_add_append, i1, i2]
      exact ⟨rfl, rfl⟩

theorem mergeReads_kept {B : Nat} (hB : B < 2 ^ 40) {a : Att} {m : Nat} (hm : 0 < m) (hr : ∀ i, a.read i = .err ∨ ∃ q, a.read i = .upto q ∧ 32 * m ≤ q)
    (ho : ∀ i, a.old i = .fine) (fuel : Nat) : ∀ (k : Nat) (hs : List Bytes) (s : Option Bytes) (ors : List Bytes), Len32 hs → IsSorted B s ors →
    ors.length + hs.length + 2 ^ 26 ≤ B →
    ∃ s' e rs, mergeReads a (32 * m) fuel k hs.flatten s = (s', e) ∧ IsSorted B s' rs ∧ (∀ r ∈ ors, r ∈ rs) ∧ (∀ r ∈ rs, r ∈ ors ∨ r ∈ hs) ∧
      rs.length ≤ ors.length + hs.length ∧ (e = .eof → ∀ r ∈ hs, r ∈ rs) := by
  induction fuel with
  | zero => intro k hs s ors _ h2 _; exact ⟨s, .abort, ors, rfl, h2, fun _ h => h, fun _ h => .inl h, by omega, by simp⟩
  | succ fuel ih =>
    intro k hs s ors hl h2 hb
    unfold mergeReads
    rcases hr k with hk | ⟨q, hk, hq⟩
    · simp only [hk]
      exact ⟨s, .err, ors, rfl, h2, fun _ h => h, fun _ h => .inl h, by omega, by simp⟩
    · obtain ⟨t1, t2⟩ := flatten_take m hs hl
      have hg : Len32 (hs.take m) := fun r hr => hl r (List.mem_of_mem_take hr)
      have hgl := flatten_len32 (hs.take m) hg
      simp only [hk, Nat.min_eq_right hq, t1]
      by_cases hnil : (hs.take m).flatten = []
      · rw [if_pos hnil]
        rw [hnil, List.length_nil] at hgl
        have : hs = [] := by
          have h3 : (hs.take m).length = 0 := by omega
          rw [List.length_take] at h3
          exact List.length_eq_zero_iff.1 (by omega)
        subst this
        exact ⟨s, .eof, ors, rfl, h2, fun _ h => h, fun _ h => .inl h, by simp, by simp⟩
      · rw [if_neg hnil]
        have habort : ∃ s' e rs, ((s, LoopEnd.abort) : Option Bytes × LoopEnd) = (s', e) ∧ IsSorted B s' rs ∧ (∀ r ∈ ors, r ∈ rs) ∧
            (∀ r ∈ rs, r ∈ ors ∨ r ∈ hs) ∧ rs.length ≤ ors.length + hs.length ∧ (e = .eof → ∀ r ∈ hs, r ∈ rs) :=
          ⟨s, .abort, ors, rfl, h2, fun _ h => h, fun _ h => .inl h, by omega, by simp⟩
        unfold mergePart
        rw [if_neg (by rw [hgl]; omega)]
        by_cases ht : a.tmp k = true
        · rw [if_pos ht]
          exact habort
        · rw [if_neg ht]
          simp only [ho, mergeErr, chunksOf_flatten (show 0 < 32 by omega) (hs.take m) hg]
          obtain ⟨q3, q1, -, q4⟩ := qsortRecs_spec (hs.take m) hg
          have q2 : Len32 (qsortRecs (hs.take m)) := fun r hr => hg r ((q1 r).1 hr)
          have hest := estimate_le h2 (qsortRecs (hs.take m))
          have hne' : qsortRecs (hs.take m) ≠ [] := by
            intro h
            have := congrArg List.length h
            rw [q4, List.length_nil] at this
            rw [List.length_eq_zero_iff.1 this] at hnil
            exact hnil rfl
          have hlen : (hs.take m).length + (hs.drop m).length = hs.length := by
            rw [← List.length_append, List.take_append_drop]
          obtain ⟨F, bp0, rs, m1, m2, m3, m4, m5⟩ := idxMerge_spec s ors
            (by cases s with
              | none => exact h2
              | some F => obtain ⟨bp0, h, -⟩ := h2; exact ⟨bp0, h⟩) (qsortRecs (hs.take m)) hne' q2 q3 (by rw [q4] at hest; omega)
          rw [q4] at m5 hest
          have hF : IsSorted B (some F) rs := ⟨bp0, m2, by rw [m3]; omega⟩
          rw [m1]
          simp only
          by_cases hfull : (hs.take m).flatten.length = 32 * m
          · rw [if_pos hfull, hfull, t2]
            obtain ⟨s', e, rs', n1, n2, n3, n4, n5, n6⟩ := ih (k + 1) (hs.drop m) (some F) rs (fun r hr => hl r (List.mem_of_mem_drop hr)) hF (by omega)
            refine ⟨s', e, rs', n1, n2, fun r h => n3 r ((m4 r).2 (.inl h)), ?_, by omega, ?_⟩
            · intro r h
              rcases n4 r h with h | h
              · rcases (m4 r).1 h with h | h
                · exact .inl h
                · exact .inr (List.mem_of_mem_take ((q1 r).1 h))
              · exact .inr (List.mem_of_mem_drop h)
            · intro he r h
              rw [← List.take_append_drop m hs, List.mem_append] at h
              rcases h with h | h
              · exact n3 r ((m4 r).2 (.inr ((q1 r).2 h)))
              · exact n6 he r h
          · rw [if_neg hfull]
            have hall : hs.take m = hs := by
              rw [hgl, List.length_take] at hfull
              exact List.take_of_length_le (by omega)
            refine ⟨some F, .eof, rs, rfl, hF, fun r h => (m4 r).2 (.inl h), ?_, by rw [hall] at m5; exact m5, ?_⟩
            · intro r h
              rcases (m4 r).1 h with h | h
              · exact .inl h
              · exact .inr (List.mem_of_mem_take ((q1 r).1 h))
            · intro _ r h
              exact (m4 r).2 (.inr ((q1 r).2 (by rw [hall]; exact h)))

/-- The index files have the records `X`; there are at most `n` in the sorted file, and in all if `b` is set. -/
def Keeps (B : Nat) (d : Dir) (X : Bytes → Prop) (n : Nat) (b : Prop) : Prop :=
  ∃ rs as hs, Good B d rs as hs ∧ (∀ x, (x ∈ rs ∨ x ∈ as ∨ x ∈ hs) ↔ X x) ∧ rs.length ≤ n ∧ (b → rs.length + as.length + hs.length ≤ n)

theorem attemptRest_kept {B : Nat} (hB : B < 2 ^ 40) {a : Att} {m : Nat} (hm : 0 < m) (hr : ∀ i, a.read i = .err ∨ ∃ q, a.read i = .upto q ∧ 32 * m ≤ q)
    (ho : ∀ i, a.old i = .fine) {d : Dir} {rs as hs : List Bytes} (h : Good B d rs as hs) (hb : rs.length + as.length + hs.length + 2 ^ 26 ≤ B)
    (hk : d.housekeep = some hs.flatten) (i : Int) {d' : Dir} {r : Ret} (e : attemptRest a (32 * m) d hs.flatten i = (d', r)) :
    Keeps B d' (fun x => x ∈ rs ∨ x ∈ as ∨ x ∈ hs) (rs.length + as.length + hs.length) (∃ i f, r = .ret i f ∧ 0 < i) ∧ d'.hold = d.hold := by
  unfold attemptRest at e
  split at e
  · cases e
    exact ⟨⟨rs, as, hs, h, fun x => Iff.rfl, by omega, by rintro ⟨i, f, h, h'⟩; cases h; omega⟩, rfl⟩
  · obtain ⟨s', l, rs', n1, n2, n3, n4, n5, n6⟩ := mergeReads_kept hB hm hr ho (hs.flatten.length + 1) 0 hs d.sorted rs
      (fun r hr => (h.good r (.inr (.inr hr))).len) h.sorted (by omega)
    rw [n1] at e
    simp only at e
    have hgood : Good B { d with sorted := s' } rs' as hs := by
      refine ⟨n2, h.app, h.hk, fun r hr => ?_⟩
      rcases hr with hr | hr | hr
      · rcases n4 r hr with hr | hr
        · exact h.good r (.inl hr)
        · exact h.good r (.inr (.inr hr))
      · exact h.good r (.inr (.inl hr))
      · exact h.good r (.inr (.inr hr))
    have hall : ∀ x, (x ∈ rs' ∨ x ∈ as ∨ x ∈ hs) ↔ (x ∈ rs ∨ x ∈ as ∨ x ∈ hs) := by
      intro x
      have := n3 x
      have := n4 x
      tauto
    cases l with
    | abort =>
      cases e
      exact ⟨⟨rs', as, hs, hgood, hall, by omega, by rintro ⟨i, f, h, h'⟩; cases h⟩, rfl⟩
    | err =>
      cases e
      exact ⟨⟨rs', as, hs, hgood, hall, by omega, by rintro ⟨i, f, h, h'⟩; cases h; omega⟩, rfl⟩
    | eof =>
      simp only at e
      split at e
      · cases e
        exact ⟨⟨rs', as, hs, hgood, hall, by omega, by rintro ⟨i, f, h, h'⟩; cases h⟩, rfl⟩
      · cases e
        refine ⟨⟨rs', as, [], ⟨n2, h.app, .inl ⟨rfl, rfl⟩, fun r hr => hgood.good r ?_⟩, ?_, by omega, fun _ => by rw [List.length_nil]; omega⟩, rfl⟩
        · rcases hr with hr | hr | hr
          · exact .inl hr
          · exact .inr (.inl hr)
          · cases hr
        · intro x
          have := n3 x
          have := n4 x
          have := n6 rfl x
          simp only [List.not_mem_nil, or_false]
          tauto

theorem attemptErr_kept {B : Nat} (hB : B < 2 ^ 40) {a : Att} {m : Nat} (hm : 0 < m) (hr : ∀ i, a.read i = .err ∨ ∃ q, a.read i = .upto q ∧ 32 * m ≤ q)
    (ho : ∀ i, a.old i = .fine) {d : Dir} {rs as hs : List Bytes} (h : Good B d rs as hs) (hb : rs.length + as.length + hs.length + 2 ^ 26 ≤ B)
    {d' : Dir} {r : Ret} (e : attemptErr a (32 * m) d = (d', r)) :
    Keeps B d' (fun x => x ∈ rs ∨ x ∈ as ∨ x ∈ hs) (rs.length + as.length + hs.length) (∃ i f, r = .ret i f ∧ 0 < i) ∧ d'.hold = d.hold := by
  have hsame : ∀ {r : Ret}, (¬ ∃ i f, r = .ret i f ∧ 0 < i) → Keeps B d (fun x => x ∈ rs ∨ x ∈ as ∨ x ∈ hs) (rs.length + as.length + hs.length)
      (∃ i f, r = .ret i f ∧ 0 < i) := fun hn => ⟨rs, as, hs, h, fun x => Iff.rfl, by omega, fun hp => absurd hp hn⟩
  unfold attemptErr at e
  split at e
  · cases e
    exact ⟨hsame (by rintro ⟨i, f, h, h'⟩; cases h; omega), rfl⟩
  · obtain ⟨h1, h2, h3, h4⟩ := h
    obtain ⟨ds, da, dh, hold⟩ := d
    simp only at h1 h2 h3 e
    rcases h2 with ⟨rfl, rfl⟩ | rfl
    · cases e
      exact ⟨hsame (by rintro ⟨i, f, h, h'⟩; cases h; omega), rfl⟩
    · rcases h3 with ⟨rfl, rfl⟩ | rfl
      · simp only at e
        split at e
        · cases e
          refine ⟨⟨rs, as, as, ⟨h1, .inr rfl, .inr rfl, fun r hr => h4 r (by tauto)⟩, fun x => by simp, by omega, by rintro ⟨i, f, h, h'⟩; cases h⟩, rfl⟩
        · obtain ⟨⟨rs', as', hs', g1, g2, g3, g4⟩, g5⟩ := attemptRest_kept hB hm hr ho (d := ⟨ds, none, some as.flatten, hold⟩) (rs := rs) (as := []) (hs := as)
            ⟨h1, .inl ⟨rfl, rfl⟩, .inr rfl, fun r hr => h4 r (by simp at hr; tauto)⟩ (by simp only [List.length_nil] at hb ⊢; omega) rfl 0 e
          refine ⟨⟨rs', as', hs', g1, fun x => ?_, by simp only [List.length_nil] at g3 ⊢; omega, fun hp => ?_⟩, g5⟩
          · rw [g2]; simp
          · have := g4 hp
            simp only [List.length_nil] at this ⊢
            omega
      · simp only at e
        exact attemptRest_kept hB hm hr ho (d := ⟨ds, some as.flatten, some hs.flatten, hold⟩) ⟨h1, .inr rfl, .inr rfl, h4⟩ hb rfl 1 e

theorem loopErr_kept {B : Nat} (hB : B < 2 ^ 40) {f : Faults} {m : Nat} (hm : 0 < m) (hf : Noticed f (32 * m)) (fuel : Nat) :
    ∀ (k : Nat) {d : Dir} {rs as hs : List Bytes}, Good B d rs as hs → rs.length + as.length + hs.length + 2 ^ 26 ≤ B →
    ∀ {d' : Dir} {o : Option Bool}, loopErr f (32 * m) fuel k d = (d', o) →
    Keeps B d' (fun x => x ∈ rs ∨ x ∈ as ∨ x ∈ hs) (rs.length + as.length + hs.length) False ∧ d'.hold = d.hold := by
  induction fuel with
  | zero =>
    intro k d rs as hs h hb d' o e
    cases e
    exact ⟨⟨rs, as, hs, h, fun x => Iff.rfl, by omega, False.elim⟩, rfl⟩
  | succ fuel ih =>
    intro k d rs as hs h hb d' o e
    unfold loopErr at e
    generalize ha : attemptErr (f.att k) (32 * m) d = q at e
    obtain ⟨d1, r⟩ := q
    obtain ⟨⟨rs1, as1, hs1, g1, g2, g3, g4⟩, g5⟩ := attemptErr_kept hB hm (hf.read k) (hf.old k) h hb ha
    cases r with
    | abort =>
      cases e
      exact ⟨⟨rs1, as1, hs1, g1, g2, g3, False.elim⟩, g5⟩
    | ret i fr =>
      simp only at e
      by_cases hi : i > 0
      · rw [if_pos hi] at e
        have hl := g4 ⟨i, fr, rfl, hi⟩
        obtain ⟨⟨rs2, as2, hs2, k1, k2, k3, -⟩, k5⟩ := ih (k + 1) g1 (by omega) e
        exact ⟨⟨rs2, as2, hs2, k1, fun x => (k2 x).trans (g2 x), by omega, False.elim⟩, k5.trans g5⟩
      · rw [if_neg hi] at e
        cases e
        exact ⟨⟨rs1, as1, hs1, g1, g2, g3, False.elim⟩, g5⟩

theorem Keeps.setHold {B : Nat} {d : Dir} {X : Bytes → Prop} {n : Nat} {b : Prop} (h : Keeps B d X n b) (x : Bool) : Keeps B { d with hold := x } X n b := by
  obtain ⟨rs, as, hs, g, h1, h2, h3⟩ := h
  exact ⟨rs, as, hs, ⟨g.1, g.2, g.3, g.4⟩, h1, h2, h3⟩

theorem resortErr_kept {B : Nat} (hB : B < 2 ^ 40) {f : Faults} {m : Nat} (hm : 0 < m) (hf : Noticed f (32 * m)) {d : Dir} {rs as hs : List Bytes}
    (h : Good B d rs as hs) (hb : rs.length + as.length + hs.length + 2 ^ 26 ≤ B) :
    Keeps B (resortErr f (32 * m) d).1 (fun x => x ∈ rs ∨ x ∈ as ∨ x ∈ hs) (rs.length + as.length + hs.length) False := by
  have h0 : Keeps B d (fun x => x ∈ rs ∨ x ∈ as ∨ x ∈ hs) (rs.length + as.length + hs.length) False := ⟨rs, as, hs, h, fun x => Iff.rfl, by omega, False.elim⟩
  have hfin : ∀ {d : Dir}, Keeps B d (fun x => x ∈ rs ∨ x ∈ as ∨ x ∈ hs) (rs.length + as.length + hs.length) False →
      Keeps B (finish f d).1 (fun x => x ∈ rs ∨ x ∈ as ∨ x ∈ hs) (rs.length + as.length + hs.length) False := by
    intro d hd
    unfold finish
    split
    · exact hd.setHold false
    · exact hd
  unfold resortErr
  split
  · exact h0
  · have hg : Good B (if f.hold = true then d else { d with hold := true }) rs as hs := by
      split
      · exact h
      · exact ⟨h.1, h.2, h.3, h.4⟩
    generalize (if f.hold = true then d else { d with hold := true }) = d0 at hg ⊢
    simp only
    split
    · exact hfin ⟨rs, as, hs, hg, fun x => Iff.rfl, by omega, False.elim⟩
    · generalize hl : loopErr f (32 * m) 2 0 d0 = q
      obtain ⟨d', o⟩ := q
      obtain ⟨k1, -⟩ := loopErr_kept hB hm hf 2 0 hg hb hl
      rcases o with _ | _ | _
      · exact k1
      · exact hfin k1
      · exact k1

/-- C90: whatever happened to the index before, whichever calls fail in housekeeping and however it ends: as long as the old
`index.sorted` can be read and the reads of the snapshot fail rather than deliver too little, the index has the entries that it
had.  What is left out is what the theorems below are about. -/
theorem C90_kept_partial (ops : List IdxOp) (hv : ∀ o ∈ ops, o.Valid) (hb : (inserts ops).length < 2 ^ 31) (size : Nat) (hn : size % 32 = 0)
    (hn0 : 0 < size) {f : Faults} (hf : Noticed f size) :
    ∃ d es es' r r', runOps {} ops = .ok d ∧ listing d = .ok (es, r) ∧ listing (resortErr f size d).1 = .ok (es', r') ∧ ∀ e, e ∈ es' ↔ e ∈ es := by
  obtain ⟨d, rs, as, hs, h1, h2, h3, h4, h5⟩ := reach_good ops hv ((inserts ops).length + 2 ^ 26) (by omega) (by omega)
  obtain ⟨⟨es, r⟩, l1, l2, l3⟩ := listing_good h2 (by omega) (by omega)
  obtain ⟨m, rfl⟩ : ∃ m, size = 32 * m := ⟨size / 32, by omega⟩
  obtain ⟨rs', as', hs', k1, k2, k3, -⟩ := resortErr_kept (by omega) (by omega) hf h2 (by omega)
  obtain ⟨⟨es', r'⟩, m1, m2, m3⟩ := listing_good k1 (by omega) (by omega)
  simp only at l2 m2
  refine ⟨d, es, es', r, r', h1, l1, m1, fun e => ?_⟩
  rw [l2, m2]
  simp only [List.mem_map, List.mem_append, or_assoc]
  constructor
  · rintro ⟨x, hx, rfl⟩
    exact ⟨x, (k2 x).1 hx, rfl⟩
  · rintro ⟨x, hx, rfl⟩
    exact ⟨x, (k2 x).2 hx, rfl⟩

/-! ### What goes wrong -/

/-- The calls of an attempt, but for the reading of the old index and the snapshot's first part. -/
def RestFine (a : Att) : Prop := a.link = false ∧ a.unlinkA = false ∧ a.openH = false ∧ (∀ i, a.tmp i = false) ∧ a.unlinkH = false

theorem idxResort_once {size : Nat} {s h : Option Bytes} {x : Bytes} (hh : h = none) :
    idxResort size ⟨s, some x, h, false⟩ = mergeChunks (chunksOf size x) s >>= fun s' => .ok ⟨s', none, none, false⟩ := by
  subst hh
  unfold idxResort resortLoop attemptMerge
  simp only [Bool.false_eq_true, if_false]
  cases mergeChunks (chunksOf size x) s <;> simp

theorem resortErr_once {f : Faults} {size : Nat} (h1 : f.hold = false) (h2 : f.mem = false) (h3 : RestFine (f.att 0)) {s : Option Bytes} {x : Bytes} {s' : Option Bytes}
    (h : mergeReads (f.att 0) size (x.length + 1) 0 x s = (s', .eof)) : resortErr f size ⟨s, some x, none, false⟩ = (⟨s', none, none, false⟩, .done) := by
  obtain ⟨a1, a2, a3, -, a5⟩ := h3
  unfold resortErr
  simp only [h1, h2, Bool.false_eq_true, and_false, if_false, loopErr, attemptErr, attemptRest, a1, a2, a3, h, a5, finish]
  simp

theorem reads_old (a b : Att) (hr : a.read = b.read) (ht : a.tmp = b.tmp) (ho : ∀ i, a.old (i + 1) = b.old (i + 1)) {size : Nat} (fuel : Nat) :
    ∀ (k : Nat) (x : Bytes) (s : Option Bytes), mergeReads a size fuel (k + 1) x s = mergeReads b size fuel (k + 1) x s := by
  induction fuel with
  | zero => intro k x s; rfl
  | succ fuel ih =>
    intro k x s
    unfold mergeReads mergePart
    rw [hr, ht, ho k]
    simp only [ih]

/-- C90, what goes wrong: if `index.sorted` cannot be opened when the first part of the snapshot is merged, housekeeping does not
notice.  It does what it does when there is no such file, so that all that was in it is gone. -/
theorem C90_lost {f : Faults} {size : Nat} (h0 : 0 < size) (h1 : f.hold = false) (h2 : f.mem = false) (h3 : RestFine (f.att 0))
    (hr : ∀ i, ∃ m, (f.att 0).read i = .upto m ∧ size ≤ m) (ho : (f.att 0).old 0 = .noOpen) (ho' : ∀ i, (f.att 0).old (i + 1) = .fine)
    {s : Option Bytes} {x : Bytes} (hx : x ≠ []) {d' : Dir} (h : idxResort size ⟨none, some x, none, false⟩ = .ok d') :
    resortErr f size ⟨s, some x, none, false⟩ = (d', .done) := by
  rw [idxResort_once rfl, Res.bind_eq_ok] at h
  obtain ⟨s', e1, e2⟩ := h
  cases e2
  refine resortErr_once h1 h2 h3 ?_
  obtain ⟨m, hm, hmm⟩ := hr 0
  have hl : 0 < x.length := List.length_pos_iff.2 hx
  have hcne : x.take size ≠ [] := by
    intro h
    have := congrArg List.length h
    simp only [List.length_take, List.length_nil] at this
    omega
  obtain ⟨n, hn⟩ : ∃ n, x.length = n + 1 := ⟨x.length - 1, by omega⟩
  unfold chunksOf at e1
  rw [hn] at e1
  simp only [chunksAux, if_neg hx, mergeChunks, Res.bind_eq_ok, Res.check_eq_ok, exists_const, decide_eq_true_eq] at e1
  obtain ⟨h32, F, e1, e2⟩ := e1
  unfold mergeReads
  simp only [hm, Nat.min_eq_right hmm, if_neg hcne]
  unfold mergePart
  rw [if_neg (Classical.not_not.2 h32), if_neg (by rw [h3.2.2.2.1]; decide), ho]
  simp only [mergeErr, e1]
  -- the rest
  let a : Att := { f.att 0 with
    old := fun _ => .fine }
  have hnil : ∀ n, chunksAux size n [] = [] := by intro n; cases n <;> simp [chunksAux]
  by_cases hfull : (x.take size).length = size
  · rw [if_pos hfull, hfull]
    have key := mergeReads_chunks (a := a) h0 hr (fun _ => rfl) h3.2.2.2.1 x.length n 1 (x.drop size) (some F) (by rw [List.length_drop]; omega) (by rw [List.length_drop]; omega)
    rw [e2] at key
    simp only at key
    rw [← key]
    exact reads_old (f.att 0) a rfl rfl (fun i => by rw [ho' i]) x.length 0 _ _
  · rw [if_neg hfull]
    have : x.drop size = [] := by
      rw [List.drop_eq_nil_iff]
      rw [List.length_take] at hfull
      omega
    rw [this, hnil] at e2
    cases e2
    rfl

theorem runOps_masked (is : List Ins) : ∀ {d d' : Dir}, runOps d (is.map .insert) = .ok d' →
    runOps { d with sorted := none } (is.map .insert) = .ok { d' with sorted := none } ∧ d'.sorted = d.sorted ∧ d'.housekeep = d.housekeep ∧ d'.hold = d.hold ∧
      (is ≠ [] → ∃ x, x ≠ [] ∧ d'.appendix = some x) := by
  have grow : ∀ (is : List Ins) {d d' : Dir}, runOps d (is.map .insert) = .ok d' → (∃ x, x ≠ [] ∧ d.appendix = some x) → ∃ x, x ≠ [] ∧ d'.appendix = some x := by
    intro is
    induction is with
    | nil => intro d d' h hx; cases h; exact hx
    | cons i is ih =>
      intro d d' h ⟨x, hx, hd⟩
      simp only [List.map_cons, runOps, Res.bind_eq_ok] at h
      obtain ⟨d1, h1, h2⟩ := h
      unfold idxInsert at h1
      simp only [Res.bind_eq_ok, Res.pure_eq, Res.ok.injEq] at h1
      obtain ⟨r, h1, rfl⟩ := h1
      exact ih h2 ⟨x ++ r, by simp [hx], by simp [hd]⟩
  induction is with
  | nil =>
    intro d d' h
    cases h
    exact ⟨rfl, rfl, rfl, rfl, fun h => absurd rfl h⟩
  | cons i is ih =>
    intro d d' h
    simp only [List.map_cons, runOps, Res.bind_eq_ok] at h
    obtain ⟨d1, h1, h2⟩ := h
    unfold idxInsert at h1
    simp only [Res.bind_eq_ok, Res.pure_eq, Res.ok.injEq] at h1
    obtain ⟨r, h1, rfl⟩ := h1
    obtain ⟨i1, i2, i3, i4, -⟩ := ih h2
    refine ⟨?_, i2, i3, i4, fun _ => ?_⟩
    · simp only [List.map_cons, runOps, idxInsert, h1, Res.ok_bind, Res.pure_eq]
      exact i1
    · refine grow is h2 ⟨d.appendix.getD [] ++ r, ?_, rfl⟩
      have hl : r.length = 32 := idxRecord_size h1
      intro h
      have := congrArg List.length h
      rw [List.length_append, List.length_nil] at this
      omega

theorem attemptMerge_clean {size : Nat} {d d' : Dir} {i : Int} (hk : d.housekeep = none) (h : attemptMerge size d = .ok (d', i)) :
    d'.housekeep = none ∧ d'.appendix = none ∧ i = 0 := by
  unfold attemptMerge at h
  obtain ⟨ds, da, dh, hold⟩ := d
  simp only at hk
  subst hk
  cases da with
  | none => cases h; exact ⟨rfl, rfl, rfl⟩
  | some x =>
    simp only [Res.bind_eq_ok, Res.pure_eq, Res.ok.injEq, Prod.mk.injEq] at h
    obtain ⟨s, -, rfl, rfl⟩ := h
    exact ⟨rfl, rfl, rfl⟩

theorem idxResort_clean {size : Nat} {d d' : Dir} (hk : d.housekeep = none) (hh : d.hold = false) (h : idxResort size d = .ok d') :
    d'.housekeep = none ∧ d'.appendix = none ∧ d'.hold = false := by
  unfold idxResort at h
  rw [hh] at h
  simp only [Bool.false_eq_true, if_false, Res.bind_eq_ok, Res.pure_eq, Res.ok.injEq] at h
  obtain ⟨d1, h1, rfl⟩ := h
  unfold resortLoop at h1
  rw [Res.bind_eq_ok] at h1
  obtain ⟨⟨d2, i⟩, h1, h2⟩ := h1
  obtain ⟨a1, a2, rfl⟩ := attemptMerge_clean (d := { d with hold := true }) hk h1
  simp only [show ¬ ((0 : Int) > 0) by decide, if_false, Res.pure_eq, Res.ok.injEq] at h2
  subst h2
  exact ⟨a1, a2, rfl⟩

theorem runOps_clean (ops : List IdxOp) : ∀ {d d' : Dir}, d.housekeep = none → d.hold = false → runOps d ops = .ok d' → d'.housekeep = none ∧ d'.hold = false := by
  induction ops with
  | nil => intro d d' h1 h2 h; cases h; exact ⟨h1, h2⟩
  | cons o ops ih =>
    intro d d' h1 h2 h
    cases o with
    | insert i =>
      simp only [runOps, Res.bind_eq_ok] at h
      obtain ⟨d1, k1, k2⟩ := h
      unfold idxInsert at k1
      simp only [Res.bind_eq_ok, Res.pure_eq, Res.ok.injEq] at k1
      obtain ⟨r, -, rfl⟩ := k1
      exact ih (d := { d with appendix := some (d.appendix.getD [] ++ r) }) h1 h2 k2
    | housekeep n =>
      simp only [runOps, Res.bind_eq_ok] at h
      obtain ⟨d1, k1, k2⟩ := h
      obtain ⟨a1, -, a3⟩ := idxResort_clean h1 h2 k1
      exact ih a1 a3 k2

theorem inserts_map (is : List Ins) : inserts (is.map IdxOp.insert) = is := by
  induction is with
  | nil => rfl
  | cons i is ih => simp only [List.map_cons, inserts, ih]

/-- C90, what goes wrong: of any index that has been housekept, only what was inserted since then is left if `index.sorted` cannot
be opened in the next housekeeping, and that is not reported. -/
theorem C90_lost_entries {f : Faults} {size : Nat} (hn : size % 32 = 0) (h0 : 0 < size) (h1 : f.hold = false) (h2 : f.mem = false) (h3 : RestFine (f.att 0))
    (hr : ∀ i, ∃ m, (f.att 0).read i = .upto m ∧ size ≤ m) (ho : (f.att 0).old 0 = .noOpen) (ho' : ∀ i, (f.att 0).old (i + 1) = .fine)
    (ops : List IdxOp) (n : Nat) (is : List Ins) (hv : ∀ i ∈ is, i.Valid) (hb : is.length < 2 ^ 31) (hne : is ≠ []) {d : Dir}
    (h : runOps {} (ops ++ [.housekeep n] ++ is.map .insert) = .ok d) :
    ∃ d' es r, resortErr f size d = (d', .done) ∧ listing d' = .ok (es, r) ∧ ∀ e, e ∈ es ↔ ∃ i ∈ is, i.entry = e := by
  rw [runOps_append, Res.bind_eq_ok] at h
  obtain ⟨d0, k1, k2⟩ := h
  rw [runOps_append, Res.bind_eq_ok] at k1
  obtain ⟨d1, k1, k3⟩ := k1
  obtain ⟨c1, c2⟩ := runOps_clean ops (d := {}) rfl rfl k1
  simp only [runOps, Res.bind_eq_ok] at k3
  obtain ⟨d2, k3, k4⟩ := k3
  cases k4
  obtain ⟨b1, b2, b3⟩ := idxResort_clean c1 c2 k3
  obtain ⟨m1, m2, m3, m4, m5⟩ := runOps_masked is k2
  obtain ⟨x, hx, hxa⟩ := m5 hne
  have hd0 : ({ d0 with sorted := none } : Dir) = {} := by
    obtain ⟨ds, da, dh, hold⟩ := d0
    simp only at b1 b2 b3
    subst b1; subst b2; subst b3
    rfl
  rw [hd0] at m1
  have hd : d = ⟨d.sorted, some x, none, false⟩ := by
    obtain ⟨ds, da, dh, hold⟩ := d
    simp only at m3 m4 hxa
    rw [hxa, m3, b1, m4, b3]
  have hd' : ({ d with sorted := none } : Dir) = ⟨none, some x, none, false⟩ := by rw [hd]
  rw [hd'] at m1
  have hins := inserts_map is
  obtain ⟨d3, rs, as, hs, g1, g2, g3, g4, g5⟩ := reach_good (is.map .insert ++ [.housekeep size]) (by
    intro o ho
    rcases List.mem_append.1 ho with ho | ho
    · obtain ⟨i, hi, rfl⟩ := List.mem_map.1 ho
      exact hv i hi
    · cases List.mem_singleton.1 ho
      exact ⟨hn, h0⟩) (is.length + 2 ^ 26) (by omega) (by rw [inserts_append, hins]; simp [inserts])
  rw [inserts_append, hins] at g4 g5
  simp only [inserts, List.append_nil] at g4 g5
  rw [runOps_append, m1, Res.ok_bind] at g1
  simp only [runOps, Res.bind_eq_ok] at g1
  obtain ⟨d4, g1, g6⟩ := g1
  cases g6
  obtain ⟨⟨es, r⟩, l1, l2, -⟩ := listing_good g2 (by omega) (by omega)
  rw [hd]
  exact ⟨d3, es, r, C90_lost h0 h1 h2 h3 hr ho ho' hx g1, l1, fun e => by simp only at l2; rw [l2, g4]⟩

/-- C90, what goes wrong: if the first read of the snapshot delivers less than was asked for, and less than there is, housekeeping
takes this for all of the snapshot, and removes it. -/
theorem C90_short {f : Faults} {size : Nat} (h1 : f.hold = false) (h2 : f.mem = false) (h3 : RestFine (f.att 0)) {m : Nat}
    (hr : (f.att 0).read 0 = .upto m) (hm : m < size) (ho : (f.att 0).old 0 = .fine) {s : Option Bytes} {x : Bytes} {d' : Dir}
    (h : idxResort size ⟨s, some (x.take m), none, false⟩ = .ok d') : resortErr f size ⟨s, some x, none, false⟩ = (d', .done) := by
  rw [idxResort_once rfl, Res.bind_eq_ok] at h
  obtain ⟨s', e1, e2⟩ := h
  cases e2
  refine resortErr_once h1 h2 h3 ?_
  unfold mergeReads
  simp only [hr, Nat.min_eq_left (Nat.le_of_lt hm)]
  by_cases hnil : x.take m = []
  · rw [if_pos hnil]
    rw [hnil] at e1
    cases e1
    rfl
  · rw [if_neg hnil]
    have hle : (x.take m).length ≤ m := by rw [List.length_take]; omega
    obtain ⟨n, hn⟩ : ∃ n, (x.take m).length = n + 1 := ⟨(x.take m).length - 1, by have := List.length_pos_iff.2 hnil; omega⟩
    have ht : (x.take m).take size = x.take m := List.take_of_length_le (by omega)
    have hd : (x.take m).drop size = [] := List.drop_eq_nil_iff.2 (by omega)
    have hn0 : ∀ n, chunksAux size n [] = [] := by intro n; cases n <;> simp [chunksAux]
    unfold chunksOf at e1
    rw [hn] at e1
    simp only [chunksAux, if_neg hnil, mergeChunks, ht, hd, hn0, Res.bind_eq_ok, Res.check_eq_ok, exists_const, decide_eq_true_eq, Res.ok.injEq] at e1
    obtain ⟨h32, F, e1, rfl⟩ := e1
    unfold mergePart
    rw [if_neg (Classical.not_not.2 h32), if_neg (by rw [h3.2.2.2.1]; decide), ho]
    simp only [mergeErr, e1]
    rw [if_neg (by omega)]

/-- C90, what goes wrong: if the snapshot cannot be opened its buffer is freed twice (index.c:589, 648), and the hold file stays. -/
theorem C90_double_free {f : Faults} {size : Nat} (h1 : f.hold = false) (h2 : f.mem = false) (hl : (f.att 0).link = false) (hu : (f.att 0).unlinkA = false)
    (ho : (f.att 0).openH = true) {d : Dir} (hd : d.hold = false) (ha : d.appendix ≠ none) : (resortErr f size d).2 = .doubleFree ∧ (resortErr f size d).1.hold = true := by
  obtain ⟨ds, da, dh, hold⟩ := d
  simp only at hd ha
  subst hd
  cases da with
  | none => exact absurd rfl ha
  | some x =>
    unfold resortErr
    simp only [h1, h2, Bool.false_eq_true, and_false, if_false, loopErr, attemptErr, hl, hu]
    cases dh <;> simp [attemptRest, ho]

/-- C90, what goes wrong: if the hold file cannot be made, but not because it is there, housekeeping does its work without it,
removes the hold file if another process has it, and ends in an assertion failure (index.c:626-633, 651-652). -/
theorem C90_no_hold {f : Faults} {size : Nat} (h0 : 0 < size) (h1 : f.hold = true) (hf : NoFaults { f with
      hold := false } size) {d d' : Dir} (hd : d.hold = true) (h : resortLoop size 2 d = .ok d') :
    resortErr f size d = ({ d' with hold := false }, .abort) := by
  have hl := loopErr_plain h0 hf 2 0 d
  rw [h] at hl
  simp only at hl
  have e : loopErr f size 2 0 d = loopErr { f with hold := false } size 2 0 d := by
    unfold loopErr
    simp only [loopErr]
  rw [hl] at e
  have hm : f.mem = false := hf.mem
  unfold resortErr
  simp only [h1, hm, Bool.true_eq_false, false_and, if_true, if_false, Bool.false_eq_true, e]
  unfold finish
  rw [resortLoop_hold 2 h, hd]
  simp [h1]

/-! ### Lookups -/

/-- C90: a lookup does not tell files that cannot be opened from files that are not there. -/
theorem C90_lookup {σ : Type} (c : CanOpen) (d : Dir) (kp : Option Bytes) (f : σ → Entry → σ × Int) (s : σ) :
    iterErr c d kp f s = idxIter { d with
      sorted := seen c.sorted d.sorted
      appendix := seen c.appendix d.appendix
      housekeep := seen c.housekeep d.housekeep } kp f s := rfl

/-- C90: if all files can be opened the lookup is that of the other theorems. -/
theorem C90_lookup_all {σ : Type} (d : Dir) (kp : Option Bytes) (f : σ → Entry → σ × Int) (s : σ) : iterErr ⟨true, true, true⟩ d kp f s = idxIter d kp f s := rfl

/-- C90, what goes wrong: if no index file can be opened, for instance as no descriptor is left, nothing is found in any index. -/
theorem C90_lookup_none {σ : Type} (d : Dir) {k : Bytes} (hk : k.all isHex = true) (f : σ → Entry → σ × Int) (s : σ) :
    iterErr ⟨false, false, false⟩ d (some k) f s = .ok (s, -1) := by
  obtain ⟨b, hb, -⟩ := idxKeyBin_spec 12 k (fun c hc => List.all_eq_true.1 hk c hc)
  unfold iterErr
  simp only [Option.getD_some, hk, Res.check_true, Res.ok_bind, hb, seen, Bool.false_eq_true, if_false, idxFiles]

/-! ### Examples -/

namespace HkErrExample

/-- An index of two entries, housekept, and two more entries. -/
def ops : List IdxOp := hist [b!"00", b!"10"] ++ [.insert ⟨b!"20", 0, 1, 2, none⟩, .insert ⟨b!"30", 0, 1, 3, none⟩]

def dir : Dir := (runOps {} ops).toOption.getD {}

/-- The keys in the index after housekeeping, and how that ends. -/
def after (f : Faults) : Option (List Bytes) × End :=
  ((listing (resortErr f 64 dir).1).toOption.map (fun r => r.1.map (fun e => e.key.take 2)), (resortErr f 64 dir).2)

def good : Att := { read := fun _ => .upto 64 }

end HkErrExample

open HkErrExample in
/-- Without failing calls, with a read error in the second part of the snapshot, with a full disk, and with one of the four files that cannot be
opened: as the theorems say. -/
example : after { att := fun _ => good } = (some [b!"00", b!"10", b!"20", b!"30"], .done) ∧
    after { att := fun _ => { good with read := fun i => if i = 1 then .err else .upto 64 } } = (some [b!"00", b!"10", b!"20", b!"30", b!"20", b!"30"], .done) ∧
    after { att := fun _ => { good with tmp := fun _ => true } } = (some [b!"00", b!"10", b!"20", b!"30"], .abort) ∧
    after { att := fun _ => { good with old := fun i => if i = 0 then .noOpen else .fine } } = (some [b!"20", b!"30"], .done) ∧
    after { att := fun _ => { good with read := fun _ => .upto 32 } } = (some [b!"00", b!"10", b!"20"], .done) ∧
    after { att := fun _ => { good with openH := true } } = (some [b!"00", b!"10", b!"20", b!"30"], .doubleFree) := by decide +kernel

open HkErrExample in
/-- C90, what goes wrong: an error when `index.sorted` is read is taken for its end (index.c:516-518), what is behind it is lost, and that is not reported. -/
theorem C90_counterexample_cut : (listing dir).toOption.map (fun r => r.1.map (fun e => e.key.take 2)) = some [b!"00", b!"10", b!"20", b!"30"] ∧
    after { att := fun _ => { good with old := fun _ => .cut 70 } } = (some [b!"00", b!"20", b!"30"], .done) := by decide +kernel

open HkErrExample in
/-- A lookup misses what is in a file that cannot be opened. -/
example : ((idxIter (σ := List Entry) dir (some b!"00") collect []).toOption.map (fun r => (r.1.length, r.2))) = some (1, 0) ∧
    ((iterErr (σ := List Entry) ⟨false, true, true⟩ dir (some b!"00") collect []).toOption.map (fun r => (r.1.length, r.2))) = some (0, 0) := by decide +kernel

end Verif.Props
