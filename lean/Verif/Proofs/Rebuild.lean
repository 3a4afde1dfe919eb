/-
Rebuilding silos: header, contents and separator in whatever pieces they come.
-/
import Verif.Model.Rebuild
import Verif.Spec.Refill
import Verif.Props.HeaderParse
import Verif.Proofs.Clean
import Verif.Proofs.Segjob
import Verif.Props.Rsilo

namespace Verif.Props
open Verif Header Gzip Wsilo Segjob Spec Inflate Rsilo
open _root_.Verif.Rebuild (Cfg Rb blankEnd putHeader gotHeader takeHead fixed takeFix endBody takeBody process members rebuildSilo rebuildFiles mainRebuild)

/-! ### The empty line -/

theorem blankEnd_le : ∀ {q : Bytes} {n : Nat}, blankEnd q = some n → n ≤ q.length
  | [], n, h => by cases h
  | c :: l, n, h => by
    rw [blankEnd] at h
    split at h
    · rename_i hp
      cases h
      obtain ⟨t, ht⟩ := List.isPrefixOf_iff_prefix.1 hp
      rw [← ht]; simp
    · cases hb : blankEnd l with
      | none => rw [hb] at h; cases h
      | some m =>
        rw [hb] at h
        cases h
        have := blankEnd_le hb
        simp only [List.length_cons]
        omega

theorem blankEnd_prefix : ∀ {q : Bytes} {n : Nat} (r : Bytes), blankEnd q = some n → blankEnd (q ++ r) = some n
  | [], n, r, h => by cases h
  | c :: l, n, r, h => by
    rw [blankEnd] at h
    rw [List.cons_append, blankEnd]
    split at h
    · rename_i hp
      obtain ⟨t, ht⟩ := List.isPrefixOf_iff_prefix.1 hp
      rw [if_pos (List.isPrefixOf_iff_prefix.2 ⟨t ++ r, by rw [← List.append_assoc, ht]; rfl⟩)]
      exact h
    · rename_i hp
      cases hb : blankEnd l with
      | none => rw [hb] at h; cases h
      | some m =>
        rw [hb] at h
        cases h
        rw [if_neg, blankEnd_prefix r hb]
        · rfl
        · intro hc
          apply hp
          have hm := blankEnd_le hb
          have hm4 : ∀ {q : Bytes} {n : Nat}, blankEnd q = some n → 4 ≤ q.length := by
            intro q
            induction q with
            | nil => intro n h; cases h
            | cons x xs ih =>
              intro n h
              rw [blankEnd] at h
              split at h
              · rename_i hx
                obtain ⟨t, ht⟩ := List.isPrefixOf_iff_prefix.1 hx
                rw [← ht]; simp
              · cases hb : blankEnd xs with
                | none => rw [hb] at h; cases h
                | some m => have := ih hb; simp only [List.length_cons]; omega
          have h4 := hm4 hb
          obtain ⟨t, ht⟩ := List.isPrefixOf_iff_prefix.1 hc
          refine List.isPrefixOf_iff_prefix.2 (List.prefix_of_prefix_length_le ⟨t, ht⟩ (l₂ := c :: l) ⟨r, rfl⟩ ?_)
          simp only [List.length_cons]
          show 4 ≤ _
          omega

theorem blankEnd_skip : ∀ (w s : Bytes), (13 : UInt8) ∉ w → blankEnd (w ++ s) = (blankEnd s).map (· + w.length)
  | [], s, _ => by simp
  | c :: w, s, h => by
    simp only [List.mem_cons, not_or] at h
    rw [List.cons_append, blankEnd, if_neg, blankEnd_skip w s h.2, Option.map_map]
    · congr 1
    · intro hp
      obtain ⟨t, ht⟩ := List.isPrefixOf_iff_prefix.1 hp
      exact h.1 (List.cons.inj ht).1

theorem blankEnd_line {line : Bytes} (q : Bytes) (h0 : line ≠ []) (h : (13 : UInt8) ∉ line) :
    blankEnd (13 :: 10 :: (line ++ 13 :: 10 :: q)) = (blankEnd (13 :: 10 :: q)).map (· + (line.length + 2)) := by
  have hsk := blankEnd_skip line (13 :: 10 :: q) h
  cases line with
  | nil => exact absurd rfl h0
  | cons x xs =>
    simp only [List.mem_cons, not_or] at h
    rw [blankEnd, if_neg, blankEnd, if_neg, hsk]
    · simp only [Option.map_map]
      congr 1
    · intro hp
      obtain ⟨t, ht⟩ := List.isPrefixOf_iff_prefix.1 hp
      cases (List.cons.inj ht).1
    · intro hp
      obtain ⟨t, ht⟩ := List.isPrefixOf_iff_prefix.1 hp
      exact h.1 (List.cons.inj (List.cons.inj (List.cons.inj ht).2).2).1

/-- A text that is parsed has no empty line but at its end. -/
theorem blankEnd_loop {pfx : Bytes} : ∀ (fuel : Nat) {h h' : Hdr} {p : Bytes}, parseLoop pfx fuel h p = .ok h' → ∀ n, blankEnd (13 :: 10 :: p) = some n → n = p.length + 2
  | 0, h, h', p, e, _, _ => by cases e
  | fuel + 1, h, h', p, e, n, hb => by
    rw [parseLoop] at e
    by_cases h0 : p = []
    · rw [h0] at hb; cases hb
    · rw [if_neg h0] at e
      simp only [Res.bind_eq_ok] at e
      obtain ⟨⟨line, q⟩, e1, q', e2, e3⟩ := e
      obtain ⟨a1, a2⟩ := cutOrFail_inv e1
      have a3 := expect_inv e2
      simp only at a1 a2 a3 e3
      rw [a3] at a1
      by_cases hl : line = []
      · rw [if_pos hl] at e3
        simp only [Res.bind_eq_ok, Res.check_eq_ok, exists_const, Res.pure_eq, Res.ok.injEq] at e3
        have hq := of_decide_eq_true e3.1
        rw [a1, hl, hq] at hb
        rw [a1, hl, hq]
        cases hb
        rfl
      · rw [if_neg hl] at e3
        simp only [Res.bind_eq_ok] at e3
        obtain ⟨h1, -, e5⟩ := e3
        rw [a1, blankEnd_line q' hl a2] at hb
        cases hq : blankEnd (13 :: 10 :: q') with
        | none => rw [hq] at hb; cases hb
        | some m =>
          rw [hq] at hb
          have := blankEnd_loop fuel e5 m hq
          simp only [Option.map_some, Option.some.injEq] at hb
          rw [a1]
          simp only [List.length_append, List.length_cons]
          omega

/-- Where the first line ends. -/
theorem parse_first {pfx t : Bytes} {h : Hdr} (e : headerParse pfx t = .ok h) :
    ∃ w p, (w = b!"WARC/1.0" ∨ w = b!"WARC/1.1") ∧ t = w ++ 13 :: 10 :: p ∧ b!"WARC-Record-ID: <" <+: p ∧
      parseLoop pfx (p.length + 1) { id := [], fields := [] } p = .ok h := by
  unfold headerParse at e
  simp only [Res.bind_eq_ok, Res.check_eq_ok, exists_const] at e
  obtain ⟨e1, ⟨l, p⟩, e2, e3⟩ := e
  obtain ⟨a1, a2⟩ := cutOrFail_inv e2
  simp only at a1 a2 e3
  have key : ∀ m : Bytes, (10 : UInt8) ∉ m → m ++ 10 :: b!"WARC-Record-ID: <" <+: t → l = m ∧ b!"WARC-Record-ID: <" <+: p := by
    intro m hm hx
    obtain ⟨s, hs⟩ := hx
    have h1 : cut 10 t = some (m, b!"WARC-Record-ID: <" ++ s) := by
      rw [← hs, List.append_assoc, List.cons_append]
      exact cut_append hm
    have h2 : cut 10 t = some (l, p) := by rw [a1]; exact cut_append a2
    rw [h1] at h2
    simp only [Option.some.injEq, Prod.mk.injEq] at h2
    exact ⟨h2.1.symm, s, h2.2⟩
  simp only [Bool.or_eq_true, List.isPrefixOf_iff_prefix] at e1
  rcases e1 with h | h
  · obtain ⟨k1, k2⟩ := key b!"WARC/1.0\r" (by decide) h
    exact ⟨_, p, .inl rfl, by rw [a1, k1]; rfl, k2, e3⟩
  · obtain ⟨k1, k2⟩ := key b!"WARC/1.1\r" (by decide) h
    exact ⟨_, p, .inr rfl, by rw [a1, k1]; rfl, k2, e3⟩

theorem blankEnd_some : ∀ (t : Bytes), ∃ n, blankEnd (t ++ b!"\r\n\r\n") = some n
  | [] => ⟨4, rfl⟩
  | c :: t => by
    obtain ⟨n, hn⟩ := blankEnd_some t
    rw [List.cons_append, blankEnd]
    split
    · exact ⟨4, rfl⟩
    · exact ⟨n + 1, by rw [hn]; rfl⟩

/-- A text that is parsed and ends with an empty line has it nowhere else. -/
theorem blankEnd_text {pfx t s : Bytes} {h : Hdr} (e : headerParse pfx t = .ok h) (hs : t = s ++ b!"\r\n\r\n") : blankEnd t = some t.length := by
  obtain ⟨w, p, hw, ht, -, e3⟩ := parse_first e
  obtain ⟨n, hn⟩ := blankEnd_some s
  rw [← hs] at hn
  rw [hn]
  have hw13 : (13 : UInt8) ∉ w := by rcases hw with rfl | rfl <;> decide
  rw [ht, blankEnd_skip w _ hw13] at hn
  cases hq : blankEnd (13 :: 10 :: p) with
  | none => rw [hq] at hn; cases hn
  | some m =>
    rw [hq] at hn
    have := blankEnd_loop _ e3 m hq
    simp only [Option.map_some, Option.some.injEq] at hn
    rw [ht]
    simp only [List.length_append, List.length_cons, Option.some.injEq]
    omega

/-! ### What has been parsed came from the text -/

theorem parseLine_mem {pfx line : Bytes} {h h' : Hdr} {b : UInt8} (hb : b ∉ line) (hs : SortedF h.fields) (hi : b ∉ h.id) (hf : ∀ f ∈ h.fields, b ∉ f.1 ∧ b ∉ f.2)
    (e : parseLine pfx h line = .ok h') : SortedF h'.fields ∧ b ∉ h'.id ∧ ∀ f ∈ h'.fields, b ∉ f.1 ∧ b ∉ f.2 := by
  unfold parseLine at e
  simp only [Res.bind_eq_ok] at e
  obtain ⟨⟨p, r⟩, e1, r', e2, e3⟩ := e
  obtain ⟨a1, -⟩ := cutOrFail_inv e1
  have a3 := expect_inv e2
  simp only at a1 a3 e3
  rw [a1, a3] at hb
  simp only [List.mem_cons, List.mem_append, not_or] at hb
  by_cases hn : p = RECORD_ID
  · rw [if_neg (by simp [hn])] at e3
    unfold parseId at e3
    simp only [Res.bind_eq_ok, Res.check_eq_ok, exists_const, Res.pure_eq, Res.ok.injEq] at e3
    obtain ⟨r1, e1, ⟨r2, s⟩, e2, -, ⟨p, id⟩, e3, e4, rfl⟩ := e3
    have c1 := expect_inv e1
    obtain ⟨c2, -⟩ := cutOrFail_inv e2
    obtain ⟨c4, -⟩ := cutLast_inv e3
    simp only at c2 c4 ⊢
    rw [c1, c2, c4] at hb
    simp only [List.mem_cons, List.mem_append, not_or] at hb
    exact ⟨hs, hb.2.2.2.2.1.2, hf⟩
  · rw [if_pos hn] at e3
    obtain ⟨-, k2, k3, -, k5, -⟩ := headerSet_inv hs e3
    refine ⟨k3, by rw [k2]; exact hi, fun f hm => ?_⟩
    rcases k5 f hm with k | ⟨k, k6 | ⟨g, k7, k8⟩⟩
    · exact hf f k
    · rw [k, k6]; exact ⟨hb.1, hb.2.2.2⟩
    · rw [k, ← k8]; exact ⟨(hf g k7).1, hb.2.2.2⟩

theorem parseLoop_mem {pfx : Bytes} {b : UInt8} : ∀ (fuel : Nat) {h h' : Hdr} {p : Bytes}, b ∉ p → SortedF h.fields → b ∉ h.id → (∀ f ∈ h.fields, b ∉ f.1 ∧ b ∉ f.2) →
    parseLoop pfx fuel h p = .ok h' → b ∉ h'.id ∧ ∀ f ∈ h'.fields, b ∉ f.1 ∧ b ∉ f.2
  | 0, _, _, _, _, _, _, _, e => by cases e
  | fuel + 1, h, h', p, hb, hs, hi, hf, e => by
    rw [parseLoop] at e
    by_cases h0 : p = []
    · rw [if_pos h0] at e
      cases e
      exact ⟨hi, hf⟩
    · rw [if_neg h0] at e
      simp only [Res.bind_eq_ok] at e
      obtain ⟨⟨line, q⟩, e1, q', e2, e3⟩ := e
      obtain ⟨a1, -⟩ := cutOrFail_inv e1
      have a3 := expect_inv e2
      simp only at a1 a3 e3
      rw [a1, a3] at hb
      simp only [List.mem_cons, List.mem_append, not_or] at hb
      by_cases hl : line = []
      · rw [if_pos hl] at e3
        simp only [Res.bind_eq_ok, Res.check_eq_ok, exists_const, Res.pure_eq, Res.ok.injEq] at e3
        obtain ⟨-, rfl⟩ := e3
        exact ⟨hi, hf⟩
      · rw [if_neg hl] at e3
        simp only [Res.bind_eq_ok] at e3
        obtain ⟨h1, e4, e5⟩ := e3
        obtain ⟨k1, k2, k3⟩ := parseLine_mem hb.1 hs hi hf e4
        exact parseLoop_mem fuel hb.2.2.2 k1 k2 k3 e5

theorem sortedF_nil : SortedF [] := by unfold SortedF; exact List.Pairwise.nil

theorem parse_mem {pfx t : Bytes} {h : Hdr} {b : UInt8} (e : headerParse pfx t = .ok h) (hb : b ∉ t) : b ∉ h.id ∧ ∀ f ∈ h.fields, b ∉ f.1 ∧ b ∉ f.2 := by
  obtain ⟨w, p, -, ht, -, e3⟩ := parse_first e
  rw [ht] at hb
  simp only [List.mem_cons, List.mem_append, not_or] at hb
  exact parseLoop_mem _ hb.2.2.2 sortedF_nil (by simp) (fun f hf => (by cases hf)) e3

/-! ### The print of a parsed header is not longer than the text -/

theorem parseLine_len {pfx line : Bytes} {h h' : Hdr} (hs : SortedF h.fields) (e : parseLine pfx h line = .ok h') :
    SortedF h'.fields ∧ flen h'.fields + h'.id.length ≤ flen h.fields + h.id.length + line.length + 2 ∧
    (b!"WARC-Record-ID: <" <+: line → flen h'.fields = flen h.fields ∧ h'.id.length + pfx.length + 18 = line.length) := by
  unfold parseLine at e
  simp only [Res.bind_eq_ok] at e
  obtain ⟨⟨p, r⟩, e1, r', e2, e3⟩ := e
  obtain ⟨a1, a2⟩ := cutOrFail_inv e1
  have a3 := expect_inv e2
  simp only at a1 a2 a3 e3
  rw [a3] at a1
  by_cases hn : p = RECORD_ID
  · rw [if_neg (by simp [hn])] at e3
    unfold parseId at e3
    simp only [Res.bind_eq_ok, Res.check_eq_ok, exists_const, Res.pure_eq, Res.ok.injEq] at e3
    obtain ⟨r1, e1, ⟨r2, s⟩, e2, e0, ⟨p', id⟩, e3, e4, rfl⟩ := e3
    have c1 := expect_inv e1
    obtain ⟨c2, -⟩ := cutOrFail_inv e2
    obtain ⟨c4, -⟩ := cutLast_inv e3
    have e4 := of_decide_eq_true e4
    have e0 := of_decide_eq_true e0
    simp only at c2 c4 e4 e0 ⊢
    have hlen : line.length = id.length + pfx.length + 18 := by
      rw [a1, c1, c2, c4, hn, e4, e0]
      simp only [List.length_append, List.length_cons, List.length_nil]
      show 14 + _ = _
      omega
    exact ⟨hs, by omega, fun _ => ⟨trivial, hlen.symm⟩⟩
  · rw [if_pos hn] at e3
    obtain ⟨-, k2, k3, -, -, k6⟩ := headerSet_inv hs e3
    have hlen : line.length = p.length + 2 + r'.length := by
      rw [a1]
      simp only [List.length_append, List.length_cons]
      omega
    refine ⟨k3, ?_, ?_⟩
    · rw [k2]
      rcases k6 with ⟨-, k⟩ | ⟨o, -, k⟩
      · omega
      · omega
    · rintro ⟨q, hq⟩
      exfalso
      have hc : cut 58 line = some (RECORD_ID, 32 :: 60 :: q) := by
        rw [← hq]
        exact cut_append (a := RECORD_ID) (b := 32 :: 60 :: q) (by decide)
      unfold cutOrFail at e1
      rw [hc] at e1
      simp only [Res.ok.injEq, Prod.mk.injEq] at e1
      exact hn e1.1.symm

theorem parseLoop_len {pfx : Bytes} : ∀ (fuel : Nat) {h h' : Hdr} {p : Bytes}, SortedF h.fields → parseLoop pfx fuel h p = .ok h' →
    flen h'.fields + h'.id.length ≤ flen h.fields + h.id.length + p.length ∧
    (blankEnd (13 :: 10 :: p) ≠ none → flen h'.fields + h'.id.length + 2 ≤ flen h.fields + h.id.length + p.length)
  | 0, _, _, _, _, e => by cases e
  | fuel + 1, h, h', p, hs, e => by
    rw [parseLoop] at e
    by_cases h0 : p = []
    · rw [if_pos h0] at e
      cases e
      refine ⟨by omega, fun hb => ?_⟩
      rw [h0] at hb
      exact absurd rfl hb
    · rw [if_neg h0] at e
      simp only [Res.bind_eq_ok] at e
      obtain ⟨⟨line, q⟩, e1, q', e2, e3⟩ := e
      obtain ⟨a1, a2⟩ := cutOrFail_inv e1
      have a3 := expect_inv e2
      simp only at a1 a2 a3 e3
      rw [a3] at a1
      have hlen : p.length = line.length + 2 + q'.length := by
        rw [a1]
        simp only [List.length_append, List.length_cons]
        omega
      by_cases hl : line = []
      · rw [if_pos hl] at e3
        simp only [Res.bind_eq_ok, Res.check_eq_ok, exists_const, Res.pure_eq, Res.ok.injEq] at e3
        obtain ⟨-, rfl⟩ := e3
        exact ⟨by omega, fun _ => by omega⟩
      · rw [if_neg hl] at e3
        simp only [Res.bind_eq_ok] at e3
        obtain ⟨h1, e4, e5⟩ := e3
        obtain ⟨k1, k2, -⟩ := parseLine_len hs e4
        obtain ⟨j1, j2⟩ := parseLoop_len fuel k1 e5
        refine ⟨by omega, fun hb => ?_⟩
        rw [a1, blankEnd_line q' hl a2] at hb
        have := j2 fun hc => hb (by rw [hc]; rfl)
        omega

theorem serialize_length (pfx : Bytes) (h : Hdr) : (headerSerialize pfx h).length = 32 + pfx.length + h.id.length + flen h.fields := by
  unfold headerSerialize flen
  simp only [List.length_append]
  show 10 + 17 + _ + _ + 3 + _ + 2 = _
  omega

/-- The print of a header is not longer than the text it was read from. -/
theorem parse_length {pfx t s : Bytes} {h : Hdr} (e : headerParse pfx t = .ok h) (hs : t = s ++ b!"\r\n\r\n") : (headerSerialize pfx h).length ≤ t.length := by
  obtain ⟨w, p, hw, ht, hm, e3⟩ := parse_first e
  have hw8 : w.length = 8 := by rcases hw with rfl | rfl <;> rfl
  have hp0 : p ≠ [] := by
    rintro rfl
    obtain ⟨q, hq⟩ := hm
    cases hq
  have hp : blankEnd (13 :: 10 :: p) ≠ none := by
    intro hn
    have h1 := blankEnd_text e hs
    rw [ht, blankEnd_skip w _ (by rcases hw with rfl | rfl <;> decide), hn] at h1
    cases h1
  rw [serialize_length]
  rw [parseLoop, if_neg hp0] at e3
  simp only [Res.bind_eq_ok] at e3
  obtain ⟨⟨line, q⟩, e1, q', e2, e3⟩ := e3
  obtain ⟨a1, a2⟩ := cutOrFail_inv e1
  have a3 := expect_inv e2
  simp only at a1 a2 a3 e3
  rw [a3] at a1
  have hlm : b!"WARC-Record-ID: <" <+: line := by
    obtain ⟨u, hu⟩ := hm
    rw [a1] at hu
    have h1 : line <+: line ++ 13 :: 10 :: q' := ⟨_, rfl⟩
    have h2 : b!"WARC-Record-ID: <" <+: line ++ 13 :: 10 :: q' := ⟨u, hu⟩
    rcases Nat.le_total (b!"WARC-Record-ID: <").length line.length with h | h
    · exact List.prefix_of_prefix_length_le h2 h1 h
    · exfalso
      have h3 := List.prefix_of_prefix_length_le h1 h2 h
      obtain ⟨v, hv⟩ := h3
      have : line ++ (v ++ u) = line ++ 13 :: 10 :: q' := by rw [← List.append_assoc, hv, hu]
      have := List.append_cancel_left this
      cases v with
      | nil =>
        rw [List.append_nil] at hv
        rw [hv] at e3
        rw [if_neg (by decide)] at e3
        simp only [Res.bind_eq_ok] at e3
        obtain ⟨h1, e4, -⟩ := e3
        cases e4
      | cons y ys =>
        cases (List.cons.inj this).1
        have : (13 : UInt8) ∈ b!"WARC-Record-ID: <" := by rw [← hv]; simp
        revert this
        decide
  have hl : line ≠ [] := by rintro rfl; obtain ⟨u, hu⟩ := hlm; cases hu
  rw [if_neg hl] at e3
  simp only [Res.bind_eq_ok] at e3
  obtain ⟨h1, e4, e5⟩ := e3
  obtain ⟨k1, -, k3⟩ := parseLine_len sortedF_nil e4
  obtain ⟨k4, k5⟩ := k3 hlm
  obtain ⟨j1, j2⟩ := parseLoop_len _ k1 e5
  have hf0 : flen ([] : List (Bytes × Bytes)) = 0 := rfl
  simp only [hf0] at k4
  have htl : t.length = 8 + 2 + line.length + 2 + q'.length := by
    rw [ht, a1]
    simp only [List.length_append, List.length_cons]
    omega
  rw [a1, blankEnd_line q' hl a2] at hp
  have := j2 fun hc => hp (by rw [hc]; rfl)
  omega

end Verif.Props
