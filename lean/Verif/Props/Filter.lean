/-
Property C41: the filter.
-/
import Verif.Proofs.Filter
import Verif.Props.Rsilo

namespace Verif.Props
open Verif Header Index Rsilo Getjob Spec Filter
open _root_.Verif.Wsilo (World)

/-! ### Reading the list -/

/-- `line` has the ID `id` on it: it comes first or after the prefix, which may be written in any case. -/
def IdLine (pfx : Bytes) (idSize : Nat) (line id : Bytes) : Prop :=
  id.length = idSize ∧ (∀ c ∈ id, isHex c = true) ∧ ∃ p rest, line = p ++ id ++ rest ∧
    (p.map toLower = pfx.map toLower ∨ p = [] ∧ ¬ pfx.map toLower <+: line.map toLower)

theorem strncasecmp_prefix (line pfx : Bytes) : strncasecmpEq line pfx pfx.length = true ↔ pfx.map toLower <+: line.map toLower := by
  unfold strncasecmpEq
  rw [List.take_length, beq_iff_eq, List.prefix_iff_eq_take, List.length_map, ← List.map_take, eq_comm]

theorem C41_line (pfx : Bytes) (idSize : Nat) (line id : Bytes) : lineId pfx idSize line = some id ↔ IdLine pfx idSize line id := by
  unfold lineId IdLine
  constructor
  · intro h
    simp only at h
    by_cases hp : strncasecmpEq line pfx pfx.length = true
    · rw [if_pos hp] at h
      by_cases h1 : (line.drop pfx.length).length < idSize
      · rw [if_pos h1] at h; cases h
      · rw [if_neg h1] at h
        split at h
        · rename_i h2
          cases h
          refine ⟨by rw [List.length_take]; omega, List.all_eq_true.1 h2, line.take pfx.length, (line.drop pfx.length).drop idSize, ?_, .inl ?_⟩
          · rw [List.append_assoc, List.take_append_drop, List.take_append_drop]
          · have := (strncasecmp_prefix line pfx).1 hp
            rw [List.prefix_iff_eq_take, List.length_map, ← List.map_take] at this
            exact this.symm
        · cases h
    · rw [if_neg hp] at h
      by_cases h1 : line.length < idSize
      · rw [if_pos h1] at h; cases h
      · rw [if_neg h1] at h
        split at h
        · rename_i h2
          cases h
          exact ⟨by rw [List.length_take]; omega, List.all_eq_true.1 h2, [], line.drop idSize, by simp, .inr ⟨rfl, fun g => hp ((strncasecmp_prefix _ _).2 g)⟩⟩
        · cases h
  · rintro ⟨h1, h2, p, rest, rfl, h3⟩
    have hall : id.all isHex = true := List.all_eq_true.2 h2
    rcases h3 with h3 | ⟨rfl, h3⟩
    · have hlen : p.length = pfx.length := by have := congrArg List.length h3; simpa using this
      have hp : strncasecmpEq (p ++ id ++ rest) pfx pfx.length = true := by
        rw [strncasecmp_prefix, List.map_append, List.map_append, h3, List.append_assoc]
        exact List.prefix_append _ _
      have hd : (p ++ id ++ rest).drop pfx.length = id ++ rest := by
        rw [← hlen, List.append_assoc, List.drop_left]
      simp only [hp, if_true, hd]
      rw [if_neg (by rw [List.length_append]; omega), ← h1, List.take_left, hall]
      rfl
    · have hp : ¬ strncasecmpEq ([] ++ id ++ rest) pfx pfx.length = true := fun g => h3 ((strncasecmp_prefix _ _).1 g)
      rw [List.nil_append] at hp ⊢
      simp only [hp, if_false, Bool.false_eq_true]
      rw [if_neg (by rw [List.length_append]; omega), ← h1, List.take_left, hall]
      rfl

/-- The text of a file with these lines. -/
def textOf (lines : List Bytes) : Bytes := (lines.map (· ++ [10])).flatten

/-- A line that fits the buffer of `n` bytes. -/
def LineOk (n : Nat) (l : Bytes) : Prop := (0 : UInt8) ∉ l ∧ (10 : UInt8) ∉ l ∧ l.length + 2 ≤ n

theorem takeWhile_ne {p : UInt8} {l : Bytes} (h : p ∉ l) (t : Bytes) : (l ++ p :: t).takeWhile (· ≠ p) = l := by
  induction l with
  | nil => simp
  | cons a l ih =>
    simp only [List.mem_cons, not_or] at h
    have : (decide (a ≠ p)) = true := decide_eq_true (fun e => h.1 e.symm)
    rw [List.cons_append, List.takeWhile_cons, this, if_pos rfl, ih h.2]

theorem fgets_line {n : Nat} {l : Bytes} (h : LineOk n l) (t : Bytes) : fgets n (l ++ 10 :: t) = some (l ++ [10], t) := by
  obtain ⟨h1, h2, h3⟩ := h
  unfold fgets
  rw [if_neg (by simp)]
  have ht : (l ++ 10 :: t).take (n - 1) = l ++ 10 :: t.take (n - 1 - (l.length + 1)) := by
    rw [List.take_append, List.take_of_length_le (by omega)]
    obtain ⟨k, hk⟩ : ∃ k, n - 1 - l.length = k + 1 := ⟨n - 2 - l.length, by omega⟩
    rw [hk, List.take_succ_cons]
    congr 3; omega
  simp only [ht, takeWhile_ne h2]
  rw [if_pos (by simp)]
  have e1 : (l ++ 10 :: t).take (l.length + 1) = l ++ [10] := by
    rw [List.take_append, List.take_of_length_le (by omega)]
    simp
  have e2 : (l ++ 10 :: t).drop (l.length + 1) = t := by
    rw [List.drop_append, List.drop_of_length_le (by omega)]
    simp
  rw [e1, e2]

theorem cstr_line {l : Bytes} (h : (0 : UInt8) ∉ l) : cstr (l ++ [10]) = l ++ [10] := by
  exact cstr_eq (by simp [h])

/-- The candidates are in order unless the list is marked. -/
def InputOk (i : Input) : Prop := i.needsSort = false → i.cands.Pairwise fun a b => Le a.id b.id

theorem addCand_ok {i : Input} (h : InputOk i) (c : Cand) : InputOk (addCand i c) := by
  intro hn
  unfold addCand at hn ⊢
  simp only [Bool.or_eq_false_iff] at hn
  simp only
  rw [List.pairwise_append]
  refine ⟨h hn.1, List.pairwise_singleton _ _, ?_⟩
  intro a ha b hb
  simp only [List.mem_singleton] at hb
  subst hb
  cases hl : i.cands.getLast? with
  | none => rw [List.getLast?_eq_none_iff] at hl; rw [hl] at ha; cases ha
  | some l =>
    have h2 := hn.2
    rw [hl] at h2
    simp only [beq_eq_false_iff_ne] at h2
    obtain ⟨pre, hpre⟩ := List.getLast?_eq_some_iff.1 hl
    have hp := h hn.1
    rw [hpre, List.pairwise_append] at hp
    rw [hpre] at ha
    rcases List.mem_append.1 ha with ha | ha
    · exact (hp.2.2 a ha l (by simp)).trans h2
    · simp only [List.mem_singleton] at ha; subst ha; exact h2

/-- Reading a file with good lines adds a candidate for each line that is not empty. -/
theorem readFile_lines {n : Nat} {pfx : Bytes} {idSize : Nat} {ids : Bytes → Bytes} (lines : List Bytes) : ∀ (fuel : Nat) (i : Input),
    (textOf lines).length < fuel → InputOk i → (∀ l ∈ lines, LineOk n l ∧ (l ≠ [] → IdLine pfx idSize l (ids l))) →
    ∃ i', readFile n pfx idSize fuel (textOf lines) i = .ok (some i') ∧ InputOk i' ∧
      i'.cands = i.cands ++ (lines.filter (· ≠ [])).map fun l => ⟨ids l, l⟩ := by
  induction lines with
  | nil =>
    intro fuel i hf hi _
    cases fuel with
    | zero => omega
    | succ fuel => exact ⟨i, by simp [readFile, textOf, fgets], hi, by simp⟩
  | cons l lines ih =>
    intro fuel i hf hi hl
    cases fuel with
    | zero => omega
    | succ fuel =>
      obtain ⟨h1, h2⟩ := hl l (by simp)
      have ht : textOf (l :: lines) = l ++ 10 :: textOf lines := by simp [textOf]
      rw [ht] at hf ⊢
      simp only [List.length_append, List.length_cons] at hf
      rw [readFile, fgets_line h1]
      simp only [cstr_line h1.1, List.length_append, List.length_cons, List.length_nil, List.getLast?_concat, ne_eq, not_true_eq_false,
        if_false, List.dropLast_concat]
      rw [show (decide (0 < l.length + (0 + 1))) = true from decide_eq_true (by omega)]
      simp only [Res.check_true, Res.ok_bind]
      by_cases h0 : l = []
      · rw [if_pos h0]
        obtain ⟨i', a1, a2, a3⟩ := ih fuel i (by omega) hi (fun x hx => hl x (by simp [hx]))
        refine ⟨i', a1, a2, ?_⟩
        rw [a3, List.filter_cons, if_neg (by simp [h0])]
      · rw [if_neg h0, (C41_line _ _ _ _).2 (h2 h0)]
        simp only
        obtain ⟨i', a1, a2, a3⟩ := ih fuel (addCand i ⟨ids l, l⟩) (by omega) (addCand_ok hi _) (fun x hx => hl x (by simp [hx]))
        refine ⟨i', a1, a2, ?_⟩
        rw [a3, List.filter_cons, if_pos (by simp [h0])]
        simp [addCand]

theorem readFiles_lines {n : Nat} {pfx : Bytes} {idSize : Nat} {ids : Bytes → Bytes} (files : List (List Bytes)) : ∀ i : Input,
    InputOk i → (∀ l ∈ files.flatten, LineOk n l ∧ (l ≠ [] → IdLine pfx idSize l (ids l))) →
    ∃ i', readFiles n pfx idSize (files.map textOf) i = .ok (some i') ∧ InputOk i' ∧
      i'.cands = i.cands ++ (files.flatten.filter (· ≠ [])).map fun l => ⟨ids l, l⟩ := by
  induction files with
  | nil => intro i hi _; exact ⟨i, rfl, hi, by simp⟩
  | cons f files ih =>
    intro i hi hl
    obtain ⟨i1, a1, a2, a3⟩ := readFile_lines (ids := ids) f ((textOf f).length + 1) i (by omega) hi (fun l h => hl l (by simp [h]))
    obtain ⟨i2, b1, b2, b3⟩ := ih i1 a2 (fun l h => hl l (by rw [List.flatten_cons]; exact List.mem_append.2 (.inr h)))
    refine ⟨i2, ?_, b2, ?_⟩
    · rw [List.map_cons, readFiles, a1]
      simp only [Res.ok_bind]
      exact b1
    · rw [b3, a3, List.flatten_cons, List.filter_append, List.map_append, List.append_assoc]

/-- C41: a line that has no ID on it ends the program with a message, whatever follows. -/
theorem C41_bad_line {n : Nat} {pfx : Bytes} {idSize : Nat} {ids : Bytes → Bytes} (lines : List Bytes) (bad : Bytes) (rest : Bytes)
    (hb : LineOk n bad) (hne : bad ≠ []) (hbad : ∀ id, ¬ IdLine pfx idSize bad id) : ∀ (fuel : Nat) (i : Input),
    (textOf lines).length + bad.length + 1 < fuel → (∀ l ∈ lines, LineOk n l ∧ (l ≠ [] → IdLine pfx idSize l (ids l))) →
    readFile n pfx idSize fuel (textOf lines ++ (bad ++ 10 :: rest)) i = .ok none := by
  induction lines with
  | nil =>
    intro fuel i hf _
    cases fuel with
    | zero => omega
    | succ fuel =>
      have hn : lineId pfx idSize bad = none := by
        cases h : lineId pfx idSize bad with
        | none => rfl
        | some id => exact absurd ((C41_line _ _ _ _).1 h) (hbad id)
      show readFile n pfx idSize (fuel + 1) (bad ++ 10 :: rest) i = _
      rw [readFile, fgets_line hb]
      simp only [cstr_line hb.1, List.length_append, List.length_cons, List.length_nil, List.getLast?_concat, ne_eq, not_true_eq_false,
        if_false, List.dropLast_concat]
      rw [show (decide (0 < bad.length + (0 + 1))) = true from decide_eq_true (by omega)]
      simp only [Res.check_true, Res.ok_bind]
      rw [if_neg hne, hn]
      rfl
  | cons l lines ih =>
    intro fuel i hf hl
    cases fuel with
    | zero => omega
    | succ fuel =>
      obtain ⟨h1, h2⟩ := hl l (by simp)
      have ht : textOf (l :: lines) = l ++ 10 :: textOf lines := by simp [textOf]
      rw [ht] at hf ⊢
      simp only [List.length_append, List.length_cons] at hf
      rw [List.append_assoc, List.cons_append, readFile, fgets_line h1]
      simp only [cstr_line h1.1, List.length_append, List.length_cons, List.length_nil, List.getLast?_concat, ne_eq, not_true_eq_false,
        if_false, List.dropLast_concat]
      rw [show (decide (0 < l.length + (0 + 1))) = true from decide_eq_true (by omega)]
      simp only [Res.check_true, Res.ok_bind]
      by_cases h0 : l = []
      · rw [if_pos h0]
        exact ih fuel i (by omega) (fun x hx => hl x (by simp [hx]))
      · rw [if_neg h0, (C41_line _ _ _ _).2 (h2 h0)]
        exact ih fuel _ (by omega) (fun x hx => hl x (by simp [hx]))

theorem takeWhile_all {p : UInt8} {l : Bytes} (h : p ∉ l) : l.takeWhile (· ≠ p) = l := by
  induction l with
  | nil => rfl
  | cons a l ih =>
    simp only [List.mem_cons, not_or] at h
    rw [List.takeWhile_cons, if_pos (by simpa using fun e => h.1 e.symm), ih h.2]

/-- C41: a line that does not end, because the file ends or because it is too long, ends the program with a message. -/
theorem C41_incomplete {n : Nat} {pfx : Bytes} {idSize : Nat} {ids : Bytes → Bytes} (lines : List Bytes) (a : UInt8) (rest : Bytes)
    (hn : 2 ≤ n) (ha : a ≠ 0) (hr : (10 : UInt8) ∉ (a :: rest).take (n - 1)) : ∀ (fuel : Nat) (i : Input),
    (textOf lines).length + 1 < fuel → (∀ l ∈ lines, LineOk n l ∧ (l ≠ [] → IdLine pfx idSize l (ids l))) →
    readFile n pfx idSize fuel (textOf lines ++ a :: rest) i = .ok none := by
  induction lines with
  | nil =>
    intro fuel i hf _
    cases fuel with
    | zero => omega
    | succ fuel =>
      show readFile n pfx idSize (fuel + 1) (a :: rest) i = _
      have hg : ∃ t, fgets n (a :: rest) = some ((a :: rest).take (n - 1), t) := by
        unfold fgets
        rw [if_neg (by simp)]
        simp only [takeWhile_all hr, Nat.lt_irrefl, if_false]
        have : (a :: rest).take ((a :: rest).take (n - 1)).length = (a :: rest).take (n - 1) := by
          rw [List.length_take, List.take_eq_take_iff]; omega
        rw [this]
        exact ⟨_, rfl⟩
      obtain ⟨t, hg⟩ := hg
      obtain ⟨k, rfl⟩ : ∃ k, n = k + 2 := ⟨n - 2, by omega⟩
      have hc : ∃ z, cstr ((a :: rest).take (k + 2 - 1)) = a :: z ∧ (10 : UInt8) ∉ a :: z := by
        have hsub : ∀ c ∈ cstr ((a :: rest).take (k + 2 - 1)), c ∈ (a :: rest).take (k + 2 - 1) := fun c hc => (List.takeWhile_sublist _).subset hc
        have hz : cstr ((a :: rest).take (k + 2 - 1)) = a :: cstr (rest.take k) := by
          show List.takeWhile _ (a :: rest.take k) = _
          rw [List.takeWhile_cons, if_pos (by simpa using ha)]
          rfl
        refine ⟨_, hz, fun h => ?_⟩
        rw [← hz] at h
        exact hr (hsub _ h)
      obtain ⟨z, hz, hz2⟩ := hc
      rw [readFile, hg]
      simp only [hz, List.length_cons, Nat.zero_lt_succ, decide_true, Res.check_true, Res.ok_bind]
      rw [if_pos]
      · rfl
      · intro h
        exact hz2 (List.mem_of_getLast? h)
  | cons l lines ih =>
    intro fuel i hf hl
    cases fuel with
    | zero => omega
    | succ fuel =>
      obtain ⟨h1, h2⟩ := hl l (by simp)
      have ht : textOf (l :: lines) = l ++ 10 :: textOf lines := by simp [textOf]
      rw [ht] at hf ⊢
      simp only [List.length_append, List.length_cons] at hf
      rw [List.append_assoc, List.cons_append, readFile, fgets_line h1]
      simp only [cstr_line h1.1, List.length_append, List.length_cons, List.length_nil, List.getLast?_concat, ne_eq, not_true_eq_false,
        if_false, List.dropLast_concat]
      rw [show (decide (0 < l.length + (0 + 1))) = true from decide_eq_true (by omega)]
      simp only [Res.check_true, Res.ok_bind]
      by_cases h0 : l = []
      · rw [if_pos h0]
        exact ih fuel i (by omega) (fun x hx => hl x (by simp [hx]))
      · rw [if_neg h0, (C41_line _ _ _ _).2 (h2 h0)]
        exact ih fuel _ (by omega) (fun x hx => hl x (by simp [hx]))

example : readFile 8192 b!"x/" 4 9 b!"12ab\n12" ⟨[], false⟩ = .ok none := by decide

/-! ### The output -/

/-- What is printed for a line whose ID is known or not. -/
def report (v r known : Bool) (line : Bytes) : Bytes :=
  if v then (if known then b!"1 " else b!"0 ") ++ line ++ b!"\n" else if known = r then line ++ b!"\n" else []

theorem number_ge (cs : List Cand) : ∀ n, ∀ c ∈ number n cs, n ≤ c.1 := by
  induction cs with
  | nil => intro n c h; cases h
  | cons a cs ih =>
    intro n c h
    rcases List.mem_cons.1 h with rfl | h
    · exact Nat.le_refl _
    · have := ih (n + 1) c h; omega

theorem number_inj (cs : List Cand) : ∀ n, ∀ c ∈ number n cs, ∀ d ∈ number n cs, c.1 = d.1 → c = d := by
  induction cs with
  | nil => intro n c h; cases h
  | cons a cs ih =>
    intro n c hc d hd e
    rcases List.mem_cons.1 hc with rfl | hc <;> rcases List.mem_cons.1 hd with rfl | hd
    · rfl
    · have := number_ge cs (n + 1) d hd; simp only at e; omega
    · have := number_ge cs (n + 1) c hc; simp only at e; omega
    · exact ih (n + 1) c hc d hd e

theorem output_eq {v r : Bool} {found : List Nat} {K : Bytes → Bool} (cs : List Cand) : ∀ n, (∀ c ∈ number n cs, c.1 ∈ found ↔ K c.2 = true) →
    output v r found n cs = (cs.map fun c => report v r (K c.id) c.line).flatten := by
  induction cs with
  | nil => intro n _; rfl
  | cons a cs ih =>
    intro n h
    rw [output, ih (n + 1) (fun c hc => h c (by simp [number, hc])), List.map_cons, List.flatten_cons]
    have hd : decide (n ∈ found) = K a.id := by
      have := h (n, a.id) (by simp [number])
      cases hk : K a.id with
      | true => exact decide_eq_true (this.2 hk)
      | false => exact decide_eq_false (fun g => by rw [this.1 g] at hk; cases hk)
    simp only [hd, report]
    congr 1
    split
    · rfl
    · by_cases e : r = K a.id
      · rw [if_pos e, if_pos e.symm]
      · rw [if_neg e, if_neg (fun g => e g.symm)]

theorem number_sorted {cs : List Cand} (h : cs.Pairwise fun a b => Le a.id b.id) : ∀ n, Filter.Sorted (number n cs) := by
  induction cs with
  | nil => intro n; exact List.Pairwise.nil
  | cons a cs ih =>
    intro n
    rw [List.pairwise_cons] at h
    refine List.pairwise_cons.2 ⟨?_, ih h.2 (n + 1)⟩
    intro c hc
    have : ∀ m, ∀ c ∈ number m cs, ∃ b ∈ cs, b.id = c.2 := by
      clear ih h hc
      induction cs with
      | nil => intro m c h; cases h
      | cons x cs ih =>
        intro m c h
        rcases List.mem_cons.1 h with rfl | h
        · exact ⟨x, by simp, rfl⟩
        · obtain ⟨b, h1, h2⟩ := ih (m + 1) c h
          exact ⟨b, by simp [h1], h2⟩
    obtain ⟨b, h1, h2⟩ := this (n + 1) c hc
    show Le a.id c.2
    rw [← h2]
    exact h.1 b h1

/-! ### The walk over the index -/

/-- Everything in the index of a history goes to the callback. -/
theorem iter_history (ops : List IdxOp) (hv : ∀ o ∈ ops, o.Valid) (hb : (inserts ops).length < 2 ^ 31) :
    ∃ d es, runOps {} ops = .ok d ∧ (∃ r, listing d = .ok (es, r)) ∧ (∀ e, e ∈ es ↔ ∃ i ∈ inserts ops, i.entry = e) ∧
      ∀ {σ : Type} (f : σ → Entry → σ × Int) (s : σ), ∃ r, idxIter d none f s = .ok r ∧ r.1 = (Spec.deliver f es s).1 := by
  obtain ⟨d, rs, as, hs, h1, h2, -, h4, h5⟩ :=
    reach_good ops hv ((inserts ops).length + 2 ^ 26) (by omega) (by omega)
  have hall : ∀ {σ : Type} (f : σ → Entry → σ × Int) (s : σ), ∃ r, idxIter d none f s = .ok r ∧
      r.1 = (Spec.deliver f ((rs ++ as ++ hs).map entryOf) s).1 := by
    intro σ f s
    obtain ⟨r, r1, r2, -⟩ := idxIter_exact (σ := σ) d rs as hs h2 (by omega) none (by simp)
      (by
        intro F hF
        have := h2.sorted
        rw [hF] at this
        obtain ⟨bp0, hi, hB⟩ := this
        rw [hi.tbl.2]; omega)
      (fun F _ => ⟨.inl (bkt0_of_nil F), .inl (bkt0_of_nil F)⟩) f s
    simp only [Option.getD_none, filter_matches_nil] at r2
    exact ⟨r, r1, r2⟩
  obtain ⟨⟨es, r⟩, l1, l2, -⟩ := listing_good h2 (by omega) (by omega)
  simp only at l2
  subst l2
  exact ⟨d, _, h1, ⟨r, l1⟩, h4, hall⟩

theorem padKey_length (k : Nat) (id : Bytes) : (padKey k id).length = k := by
  unfold padKey
  simp only [List.length_append, List.length_take, List.length_map, List.length_replicate]
  omega

theorem prefix_take {k id : Bytes} (h : k.length = 24) : k <+: id ↔ k = id.take 24 := by
  rw [List.prefix_iff_eq_take, h]

/-- What `main_filter` does, given which candidates the walk finds. -/
theorem mainFilter_spec {n ps : Nat} {pfx : Bytes} {idSize : Nat} {qs : List Elem → List Elem} (hq : ∀ l, (qs l).Perm l ∧ Filter.Sorted (qs l))
    {ops : List IdxOp} (hv : ∀ o ∈ ops, o.Valid) (hb : (inserts ops).length < 2 ^ 31) {w : World} (hw : runOps {} ops = .ok w.dir)
    {ids : Bytes → Bytes} {files : List (List Bytes)} (hf : ∀ l ∈ files.flatten, LineOk n l ∧ (l ≠ [] → IdLine pfx idSize l (ids l)))
    (s r v : Bool) {es : List Entry} {x : Int} (hes : listing w.dir = .ok (es, x)) (P : Entry → Bytes → Bool)
    (hch : s = true → ∀ pre a b post, es = pre ++ a :: b :: post → a.key ≠ b.key)
    (hc : ∀ e ∈ es, ∀ id, e.key <+: id → check ps pfx w s e id = .ok (P e id))
    (hP : s = false → ∀ e ∈ es, ∀ id, P e id = true) :
    mainFilter n ps pfx idSize qs w s r v (files.map textOf) =
      .ok (some ((files.flatten.filter (· ≠ [])).map fun l => report v r (es.any fun e => e.key.isPrefixOf (ids l) && P e (ids l)) l).flatten) := by
  obtain ⟨i, a1, a2, a3⟩ := readFiles_lines (n := n) (pfx := pfx) (idSize := idSize) (ids := ids) files ⟨[], false⟩ (by intro _; simp) hf
  rw [List.nil_append] at a3
  obtain ⟨d, es', b1, ⟨x', b2⟩, b3, b4⟩ := iter_history ops hv hb
  rw [hw] at b1
  cases b1
  rw [hes] at b2
  cases b2
  have hlen : ∀ e ∈ es, e.key.length = 24 := by
    intro e he
    obtain ⟨i, -, rfl⟩ := (b3 e).1 he
    exact padKey_length 24 i.id
  obtain ⟨L, hL, hLp, hLs⟩ : ∃ L, L = (if i.needsSort then qs (number 0 i.cands) else number 0 i.cands) ∧ L.Perm (number 0 i.cands) ∧ Filter.Sorted L := by
    refine ⟨_, rfl, ?_⟩
    cases hn : i.needsSort with
    | true => simpa using hq (number 0 i.cands)
    | false => exact ⟨by simp, by simpa using number_sorted (a2 hn) 0⟩
  obtain ⟨st, c1, c2⟩ := deliver_filter (chk := check ps pfx w s) (P := P) (s := s) es { front := L, back := [], last := [], found := [] }
    (by simpa using hLs) (fun h => absurd rfl h) hlen (fun _ h => absurd rfl h) hch (fun e he c _ => hc e he c.2) (fun h e he c _ => hP h e he c.2)
  obtain ⟨y, d1, d2⟩ := b4 (filterIter (check ps pfx w s)) (.ok { front := L, back := [], last := [], found := [] })
  unfold mainFilter
  simp only [a1, Res.ok_bind, ← hL, d1, d2, c1, Res.pure_eq]
  congr 2
  rw [output_eq (K := fun id => es.any fun e => e.key.isPrefixOf id && P e id) i.cands 0, a3, List.map_map]
  · rfl
  · intro c hc1
    rw [c2]
    simp only [List.not_mem_nil, false_or, List.append_nil, List.any_eq_true, Bool.and_eq_true, List.isPrefixOf_iff_prefix]
    constructor
    · rintro ⟨e, h1, c', h2, h3, h4⟩
      have := number_inj i.cands 0 c' (hLp.mem_iff.1 h2) c hc1 h3
      subst this
      exact ⟨e, h1, h4⟩
    · rintro ⟨e, h1, h2⟩
      exact ⟨e, h1, c, hLp.mem_iff.2 hc1, rfl, h2⟩

/-! ### C41 -/

/-- Exactly what the filter does without `-s`: an ID counts as known if its first 24 characters, as written, are the key of an
index entry. -/
theorem C41_exact {n ps : Nat} {pfx : Bytes} {idSize : Nat} {qs : List Elem → List Elem} (hq : ∀ l, (qs l).Perm l ∧ Filter.Sorted (qs l))
    {ops : List IdxOp} (hv : ∀ o ∈ ops, o.Valid) (hb : (inserts ops).length < 2 ^ 31) {w : World} (hw : runOps {} ops = .ok w.dir)
    {ids : Bytes → Bytes} {files : List (List Bytes)} (hf : ∀ l ∈ files.flatten, LineOk n l ∧ (l ≠ [] → IdLine pfx idSize l (ids l)))
    (r v : Bool) :
    mainFilter n ps pfx idSize qs w false r v (files.map textOf) =
      .ok (some ((files.flatten.filter (· ≠ [])).map fun l => report v r ((inserts ops).any fun i => padKey 24 i.id == (ids l).take 24) l).flatten) := by
  obtain ⟨d, es, b1, ⟨x, b2⟩, b3, -⟩ := iter_history ops hv hb
  rw [hw] at b1
  cases b1
  rw [mainFilter_spec (n := n) (ps := ps) (pfx := pfx) (idSize := idSize) hq hv hb hw hf false r v b2 (fun _ _ => true) (fun h => by cases h)
    (fun e _ id _ => rfl) (fun _ _ _ _ => rfl)]
  congr 3
  apply List.map_congr_left
  intro l _
  congr 1
  rw [Bool.eq_iff_iff]
  simp only [List.any_eq_true, Bool.and_true, List.isPrefixOf_iff_prefix, beq_iff_eq]
  constructor
  · rintro ⟨e, h1, h2⟩
    obtain ⟨i, h3, rfl⟩ := (b3 e).1 h1
    exact ⟨i, h3, (prefix_take (padKey_length 24 i.id)).1 h2⟩
  · rintro ⟨i, h1, h2⟩
    exact ⟨i.entry, (b3 _).2 ⟨i, h1, rfl⟩, (prefix_take (padKey_length 24 i.id)).2 h2⟩

/-- C41: the filter prints exactly the lines whose ID has no entry in the index (with `-r`: has one; with `-v`: all lines, marked),
in the order they were given, for every history of the index and every list.  IDs must have at least 24 digits and the first 24
must be in lower case. -/
theorem C41_filter_partial {n ps : Nat} {pfx : Bytes} {idSize : Nat} (h24 : 24 ≤ idSize) {qs : List Elem → List Elem}
    (hq : ∀ l, (qs l).Perm l ∧ Filter.Sorted (qs l))
    {ops : List IdxOp} (hv : ∀ o ∈ ops, o.Valid) (hb : (inserts ops).length < 2 ^ 31) {w : World} (hw : runOps {} ops = .ok w.dir)
    {ids : Bytes → Bytes} {files : List (List Bytes)} (hf : ∀ l ∈ files.flatten, LineOk n l ∧ (l ≠ [] → IdLine pfx idSize l (ids l)))
    (hlow : ∀ l ∈ files.flatten, l ≠ [] → ∀ c ∈ (ids l).take 24, toLower c = c) (r v : Bool) :
    mainFilter n ps pfx idSize qs w false r v (files.map textOf) =
      .ok (some ((files.flatten.filter (· ≠ [])).map fun l => report v r ((inserts ops).any fun i => padKey 24 i.id == padKey 24 (ids l)) l).flatten) := by
  rw [C41_exact hq hv hb hw hf r v]
  congr 3
  apply List.map_congr_left
  intro l hl
  rw [List.mem_filter] at hl
  have hne : l ≠ [] := by simpa using hl.2
  have hk : padKey 24 (ids l) = (ids l).take 24 := by
    have h1 := ((hf l hl.1).2 hne).1
    unfold padKey
    simp only [← List.map_take]
    rw [List.length_map, List.length_take, show 24 - min 24 (ids l).length = 0 by omega, List.replicate_zero, List.append_nil]
    conv => rhs; rw [← List.map_id ((ids l).take 24)]
    exact List.map_congr_left (fun c hc => hlow l hl.1 hne c hc)
  rw [hk]

/-- C41, the plain case: the lines that are printed. -/
theorem C41_missing_partial {n ps : Nat} {pfx : Bytes} {idSize : Nat} (h24 : 24 ≤ idSize) {qs : List Elem → List Elem}
    (hq : ∀ l, (qs l).Perm l ∧ Filter.Sorted (qs l))
    {ops : List IdxOp} (hv : ∀ o ∈ ops, o.Valid) (hb : (inserts ops).length < 2 ^ 31) {w : World} (hw : runOps {} ops = .ok w.dir)
    {ids : Bytes → Bytes} {files : List (List Bytes)} (hf : ∀ l ∈ files.flatten, LineOk n l ∧ (l ≠ [] → IdLine pfx idSize l (ids l)))
    (hlow : ∀ l ∈ files.flatten, l ≠ [] → ∀ c ∈ (ids l).take 24, toLower c = c) :
    mainFilter n ps pfx idSize qs w false false false (files.map textOf) =
      .ok (some (textOf (files.flatten.filter fun l => l ≠ [] ∧ ∀ i ∈ inserts ops, padKey 24 i.id ≠ padKey 24 (ids l)))) := by
  rw [C41_filter_partial h24 hq hv hb hw hf hlow false false]
  congr 2
  have : ∀ ls : List Bytes, ((ls.filter (· ≠ [])).map fun l => report false false ((inserts ops).any fun i => padKey 24 i.id == padKey 24 (ids l)) l).flatten =
      textOf (ls.filter fun l => l ≠ [] ∧ ∀ i ∈ inserts ops, padKey 24 i.id ≠ padKey 24 (ids l)) := by
    intro ls
    unfold textOf
    induction ls with
    | nil => rfl
    | cons l ls ih =>
      by_cases h0 : l = []
      · rw [List.filter_cons, if_neg (by simp [h0]), List.filter_cons, if_neg (by simp [h0]), ih]
      · rw [List.filter_cons, if_pos (by simp [h0]), List.map_cons, List.flatten_cons, ih, List.filter_cons]
        by_cases hk : ∀ i ∈ inserts ops, padKey 24 i.id ≠ padKey 24 (ids l)
        · have : ((inserts ops).any fun i => padKey 24 i.id == padKey 24 (ids l)) = false := by
            rw [← Bool.not_eq_true, List.any_eq_true]
            rintro ⟨i, h1, h2⟩
            exact hk i h1 (by simpa using h2)
          rw [this, if_pos (decide_eq_true ⟨h0, hk⟩), List.map_cons, List.flatten_cons]
          rfl
        · have : ((inserts ops).any fun i => padKey 24 i.id == padKey 24 (ids l)) = true := by
            rw [List.any_eq_true]
            apply Classical.byContradiction
            intro h
            apply hk
            intro i hi e
            exact h ⟨i, hi, by simpa using e⟩
          rw [this, if_neg (by simp only [decide_eq_true_eq]; exact fun h => hk h.2)]
          rfl
  exact this _

/-- C41 with `-s`: an ID counts as known if the header of a record with its key has that ID, provided that no two neighbouring
entries of the index have the same key. -/
theorem C41_silos_partial {n ps : Nat} {pfx : Bytes} {idSize : Nat} {qs : List Elem → List Elem} (hq : ∀ l, (qs l).Perm l ∧ Filter.Sorted (qs l))
    {ops : List IdxOp} (hv : ∀ o ∈ ops, o.Valid) (hb : (inserts ops).length < 2 ^ 31) {w : World} (hw : runOps {} ops = .ok w.dir)
    {ids : Bytes → Bytes} {files : List (List Bytes)} (hf : ∀ l ∈ files.flatten, LineOk n l ∧ (l ≠ [] → IdLine pfx idSize l (ids l)))
    (r v : Bool) {es : List Entry} {x : Int} (hes : listing w.dir = .ok (es, x))
    (hch : ∀ pre a b post, es = pre ++ a :: b :: post → a.key ≠ b.key)
    {recId : Entry → Bytes} (ho : ∀ e ∈ es, ∃ h rs, openRec ps pfx w e.silo e.off = .ok (h, rs) ∧ h.id = recId e) :
    mainFilter n ps pfx idSize qs w true r v (files.map textOf) =
      .ok (some ((files.flatten.filter (· ≠ [])).map fun l =>
        report v r (es.any fun e => e.key == (ids l).take 24 && (recId e).map toLower == (ids l).map toLower) l).flatten) := by
  rw [mainFilter_spec (n := n) (ps := ps) (pfx := pfx) (idSize := idSize) hq hv hb hw hf true r v hes
    (fun e id => (recId e).map toLower == id.map toLower) (fun _ => hch)
    (by
      intro e he id _
      obtain ⟨h, rs, e1, e2⟩ := ho e he
      unfold check
      rw [if_neg (by decide), e1]
      simp only [Res.ok_bind, Res.pure_eq, e2, Res.ok.injEq]
      rw [Bool.eq_iff_iff, decide_eq_true_iff, beq_iff_eq, strcasecmp_eq])
    (fun h => by cases h)]
  congr 3
  apply List.map_congr_left
  intro l _
  congr 1
  obtain ⟨-, -, -, -, b3, -⟩ := iter_history ops hv hb
  rw [Bool.eq_iff_iff]
  simp only [List.any_eq_true, Bool.and_eq_true, List.isPrefixOf_iff_prefix, beq_iff_eq]
  have hlen : ∀ e ∈ es, e.key.length = 24 := by
    obtain ⟨d, es', b1, ⟨x', b2⟩, b3, b4⟩ := iter_history ops hv hb
    rw [hw] at b1
    cases b1
    rw [hes] at b2
    cases b2
    intro e he
    obtain ⟨i, -, rfl⟩ := (b3 e).1 he
    exact padKey_length 24 i.id
  constructor
  · rintro ⟨e, h1, h2, h3⟩
    exact ⟨e, h1, (prefix_take (hlen e h1)).1 h2, h3⟩
  · rintro ⟨e, h1, h2, h3⟩
    exact ⟨e, h1, (prefix_take (hlen e h1)).2 h2, h3⟩

/-- C41 does not hold for IDs of less than 24 digits: no ID is ever found. -/
theorem C41_counterexample_short {n ps : Nat} {pfx : Bytes} {idSize : Nat} (h24 : idSize < 24) {qs : List Elem → List Elem}
    (hq : ∀ l, (qs l).Perm l ∧ Filter.Sorted (qs l))
    {ops : List IdxOp} (hv : ∀ o ∈ ops, o.Valid) (hb : (inserts ops).length < 2 ^ 31) {w : World} (hw : runOps {} ops = .ok w.dir)
    {ids : Bytes → Bytes} {files : List (List Bytes)} (hf : ∀ l ∈ files.flatten, LineOk n l ∧ (l ≠ [] → IdLine pfx idSize l (ids l))) :
    mainFilter n ps pfx idSize qs w false false false (files.map textOf) = .ok (some (textOf (files.flatten.filter (· ≠ [])))) := by
  rw [C41_exact hq hv hb hw hf false false]
  congr 2
  unfold textOf
  congr 1
  apply List.map_congr_left
  intro l hl
  rw [List.mem_filter] at hl
  have h1 := ((hf l hl.1).2 (by simpa using hl.2)).1
  have : ((inserts ops).any fun i => padKey 24 i.id == (ids l).take 24) = false := by
    rw [← Bool.not_eq_true, List.any_eq_true]
    rintro ⟨i, -, h⟩
    rw [beq_iff_eq] at h
    have := congrArg List.length h
    rw [padKey_length, List.length_take] at this
    omega
  rw [this]
  rfl

/-- C41 does not hold for IDs with an upper-case digit among the first 24: such an ID is never found, though `get` finds it. -/
theorem C41_counterexample_upper {id : Bytes} {c : UInt8} (hc : c ∈ id.take 24) (hu : 65 ≤ c ∧ c ≤ 90) (is : List Ins) :
    (is.any fun i => padKey 24 i.id == id.take 24) = false := by
  rw [← Bool.not_eq_true, List.any_eq_true]
  rintro ⟨i, -, h⟩
  rw [beq_iff_eq] at h
  rw [← h] at hc
  unfold padKey at hc
  simp only [List.mem_append, List.mem_replicate] at hc
  rcases hc with hc | ⟨-, hc⟩
  · have := List.mem_of_mem_take hc
    rw [List.mem_map] at this
    obtain ⟨d, -, hd⟩ := this
    subst hd
    unfold toLower at hu
    by_cases h : 65 ≤ d ∧ d ≤ 90
    · rw [if_pos h] at hu
      have h1 : 65 ≤ d.toNat := h.1
      have h2 : d.toNat ≤ 90 := h.2
      have h3 : (d + 32).toNat ≤ 90 := hu.2
      rw [UInt8.toNat_add] at h3
      have h4 : (32 : UInt8).toNat = 32 := rfl
      omega
    · rw [if_neg h] at hu
      exact h hu
  · subst hc
    exact absurd hu (by decide)

end Verif.Props
