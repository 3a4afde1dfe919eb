/-
Properties C01 to C06: the index without crashes and concurrency.
-/
import Verif.Proofs.IndexState

namespace Verif.Props
open Verif Index Spec

/-- All entries the index reports when asked for everything. -/
def listing (d : Dir) : Res (List Entry × Int) := idxIter d none collect []

theorem deliver_collect (es s : List Entry) : deliver collect es s = (s ++ es, 0) := by
  induction es generalizing s with
  | nil => simp [deliver]
  | cons e es ih => simp [deliver, collect, ih]

theorem bkt0_of_nil (F : Bytes) : idKey [] / 2 ^ (64 - tblBits F) = 0 := by
  have : idKey [] = 0 := by decide
  rw [this, Nat.zero_div]

theorem filter_matches_nil (es : List Entry) : es.filter (Matches []) = es := by
  simp [Matches]

theorem listing_good {B : Nat} {d : Dir} {rs as hs : List Bytes} (h : Good B d rs as hs)
    (hb : rs.length ≤ 2 ^ 40) (hn : B < 2 ^ 32) :
    ∃ r, listing d = .ok r ∧ r.1 = (rs ++ as ++ hs).map entryOf ∧
      (rs ++ as ++ hs ≠ [] → r.2 = 0) := by
  obtain ⟨r, r1, r2, r3⟩ := idxIter_exact (σ := List Entry) d rs as hs h hb none (by simp)
    (by
      intro F hF
      have := h.sorted
      rw [hF] at this
      obtain ⟨bp0, hi, hB⟩ := this
      rw [hi.tbl.2]; omega)
    (fun F _ => ⟨.inl (bkt0_of_nil F), .inl (bkt0_of_nil F)⟩) collect []
  simp only [Option.getD_none, filter_matches_nil, deliver_collect, List.nil_append] at r2 r3
  refine ⟨r, r1, r2, ?_⟩
  intro hne
  rcases r3 with r3 | ⟨_, n1, n2, n3⟩
  · exact r3
  · exfalso
    apply hne
    have h1 := h.sorted
    have h2 := h.app
    have h3 := h.hk
    rw [n1] at h1
    rw [n2] at h2
    rw [n3] at h3
    simp only [IsSorted] at h1
    simp only [IsApp, true_and, reduceCtorEq, or_false] at h2 h3
    simp [h1, h2, h3]

/-! ### C01 -/

/-- C01: an entry inserted into an empty index is listed back: lower-cased key cut or zero-filled to
24 digits, flags, silo, offset, and 8 digits of the continuation. -/
theorem C01_insert_roundtrip (i : Ins) (hi : i.Valid) :
    ∃ d, idxInsert {} i.id i.flags i.silo i.off i.cont = .ok d ∧ listing d = .ok ([i.entry], 0) := by
  obtain ⟨d, r, h1, h2, h3, h4, h5⟩ := idxInsert_spec (B := 0) {} [] [] [] (Good.empty 0) i hi
  refine ⟨d, h1, ?_⟩
  obtain ⟨⟨l, x⟩, l1, l2, l3⟩ := listing_good h2 (by simp) (by omega)
  simp only [List.nil_append, List.append_nil, List.map_cons, List.map_nil, h4] at l2
  simp only at l3
  rw [l1, l2, l3 (by simp)]

/-- The entry of a concrete insert, to show what `Ins.entry` says. -/
example : (⟨b!"00fF7", 7, 3, 4096, some b!"ABcd"⟩ : Ins).entry =
    ⟨b!"00ff70000000000000000000", 7, 3, 4096, b!"abcd0000"⟩ := by decide

example : (⟨b!"00fF7", 7, 3, 4096, some b!"ABcd"⟩ : Ins).Valid := by
  refine ⟨by decide, by decide, by decide, by decide, ?_⟩
  intro k hk
  cases hk
  decide

/-! ### C02 -/

theorem insertAll_good {B : Nat} (is : List Ins) (hv : ∀ i ∈ is, i.Valid) (d : Dir) (rs as hs : List Bytes)
    (h : Good B d rs as hs) :
    ∃ d' as', insertAll d is = .ok d' ∧ Good B d' rs (as ++ as') hs ∧ d'.sorted = d.sorted ∧
      d'.housekeep = d.housekeep ∧ as'.map entryOf = is.map Ins.entry ∧
      (is ≠ [] → d'.appendix ≠ none) := by
  induction is generalizing d as with
  | nil => exact ⟨d, [], rfl, by simpa using h, rfl, rfl, rfl, by simp⟩
  | cons i is ih =>
    obtain ⟨d1, r, h1, h2, h3, h4, h5⟩ := idxInsert_spec d rs as hs h i (hv i (by simp))
    obtain ⟨d', as', g1, g2, g3, g4, g5, g6⟩ := ih (fun j hj => hv j (by simp [hj])) d1 (as ++ [r]) h2
    refine ⟨d', r :: as', by simp [insertAll, h1, g1], by simpa using g2, by rw [g3, h5], by rw [g4, h5],
      by simp [h4, g5], ?_⟩
    intro _ hn
    cases is with
    | nil =>
      simp only [insertAll, Res.ok.injEq] at g1
      rw [← g1, h5] at hn
      simp at hn
    | cons j js => exact g6 (by simp) hn

/-- C02: with entries inserted and no housekeeping done, a lookup (any prefix, or none) calls the
caller's function on exactly the matching entries in insertion order, stops when that function
returns non-zero, and returns the last value.  `deliver` is that loop. -/
theorem C02_appendix_lookup {σ : Type} (is : List Ins) (hne : is ≠ []) (hv : ∀ i ∈ is, i.Valid)
    (kp : Option Bytes) (hk : ∀ c ∈ kp.getD [], isHex c) (f : σ → Entry → σ × Int) (s : σ) :
    ∃ d, insertAll {} is = .ok d ∧
      idxIter d kp f s =
        .ok (deliver f ((is.map Ins.entry).filter (Matches (kp.getD []))) s) := by
  obtain ⟨d, as, h1, h2, h3, h4, h5, h6⟩ := insertAll_good (B := 0) is hv {} [] [] [] (Good.empty 0)
  refine ⟨d, h1, ?_⟩
  obtain ⟨⟨a, b⟩, r1, r2, r3⟩ := idxIter_exact d [] ([] ++ as) [] h2 (by simp) kp hk
    (by simp [h3]) (by simp [h3]) f s
  simp only [List.nil_append, List.append_nil, h5] at r2 r3
  rcases r3 with r3 | ⟨_, _, r3, _⟩
  · rw [r1, r2, r3]
  · exact absurd r3 (h6 hne)

/-- Nothing inserted: the callback is never called. -/
theorem C02_empty_lookup {σ : Type} (kp : Option Bytes) (hk : ∀ c ∈ kp.getD [], isHex c)
    (f : σ → Entry → σ × Int) (s : σ) : idxIter {} kp f s = .ok (s, -1) := by
  obtain ⟨keyP, k1, -, -⟩ := idxKeyBin_spec 12 (kp.getD []) hk
  have hall : ((kp.getD []).all fun c => isHex c) = true := by
    rw [List.all_eq_true]; exact hk
  simp [idxIter, hall, k1, idxFiles]

example : idxIter (σ := List Entry) { appendix := some (List.replicate 31 0 ++ [1]) } (some b!"0") collect [] =
    .ok ([⟨List.replicate 24 48, 0, 0, 0, b!"00000001"⟩], 0) := by decide +kernel

/-! ### C03 -/

theorem reach_good (ops : List IdxOp) (hv : ∀ o ∈ ops, o.Valid) (B : Nat) (hB : B < 2 ^ 40)
    (hb : (inserts ops).length + 2 ^ 26 ≤ B) :
    ∃ d rs as hs, runOps {} ops = .ok d ∧ Good B d rs as hs ∧ d.hold = false ∧
      (∀ e, e ∈ (rs ++ as ++ hs).map entryOf ↔ ∃ i ∈ inserts ops, i.entry = e) ∧
      rs.length + as.length + hs.length ≤ (inserts ops).length := by
  obtain ⟨d, rs, as, hs, h1, h2, h3, h4, h5⟩ :=
    runOps_spec hB ops hv {} [] [] [] (Good.empty B) (by simpa using hb)
  refine ⟨d, rs, as, hs, h1, h2, h3, ?_, by simpa using h5⟩
  intro e
  have := h4 e
  simp only [List.not_mem_nil, or_self, false_and, exists_false, false_or] at this
  rw [← this]
  simp only [List.mem_map, List.mem_append, or_assoc]

/-- C03, proved part: after any history of inserts and housekeeping runs with fewer than 2^31
inserts, a lookup of an ID or prefix of at least 8 digits reports exactly the inserted entries that
match it, provided the interpolation in the sorted file is safe for this key (`SeekSafe`).

Missing: keys for which `SeekSafe` fails; for those the claim is false, see the counterexamples
below. -/
theorem C03_housekept_lookup_partial (ops : List IdxOp) (hv : ∀ o ∈ ops, o.Valid)
    (hb : (inserts ops).length < 2 ^ 31) (k : Bytes) (hk : ∀ c ∈ k, isHex c) (hk8 : 8 ≤ k.length) :
    ∃ d, runOps {} ops = .ok d ∧
      ((∀ F, d.sorted = some F → SeekSafe F k) →
        ∃ es : List Entry,
          (∀ e, e ∈ es ↔ Matches k e ∧ ∃ i ∈ inserts ops, i.entry = e) ∧
          ∀ (σ : Type) (f : σ → Entry → σ × Int) (s : σ),
            ∃ r, idxIter d (some k) f s = .ok r ∧ r.1 = (deliver f es s).1 ∧
              (inserts ops ≠ [] → r = deliver f es s)) := by
  obtain ⟨d, rs, as, hs, h1, h2, -, h4, h5⟩ :=
    reach_good ops hv ((inserts ops).length + 2 ^ 26) (by omega) (by omega)
  refine ⟨d, h1, fun hsafe => ⟨((rs ++ as ++ hs).map entryOf).filter (Matches k), ?_, ?_⟩⟩
  · intro e
    rw [List.mem_filter, h4]
    exact and_comm
  · intro σ f s
    have hB : ∀ F, d.sorted = some F → tblNrec F < 2 ^ 32 ∧ tblBits F ≤ 28 := by
      intro F hF
      have := h2.sorted
      rw [hF] at this
      obtain ⟨bp0, hi, hB⟩ := this
      obtain ⟨f1, f2, -, -, -, -⟩ := hi.facts
      rw [hi.tbl.2, hi.tbl.1]
      constructor <;> omega
    obtain ⟨⟨a, b⟩, r1, r2, r3⟩ := idxIter_exact d rs as hs h2 (by omega) (some k) (by simpa using hk)
      (fun F hF => (hB F hF).1)
      (fun F hF => ⟨hsafe F hF, .inr (by have := (hB F hF).2; simp only [Option.getD_some]; omega)⟩) f s
    refine ⟨(a, b), r1, r2, ?_⟩
    intro hne
    rcases r3 with r3 | ⟨_, n1, n2, n3⟩
    · simp only [Option.getD_some] at r2 r3
      rw [r2, r3]
    · exfalso
      have g1 := h2.sorted
      have g2 := h2.app
      have g3 := h2.hk
      rw [n1] at g1
      rw [n2] at g2
      rw [n3] at g3
      simp only [IsSorted] at g1
      simp only [IsApp, true_and, reduceCtorEq, or_false] at g2 g3
      subst g1 g2 g3
      obtain ⟨i, hi⟩ := List.exists_mem_of_ne_nil _ hne
      have := (h4 i.entry).2 ⟨i, hi, rfl⟩
      simp at this

/-- A history for the examples: one entry per given first byte, all other digits zero. -/
def hist (keys : List Bytes) : List IdxOp :=
  (keys.map fun k => IdxOp.insert ⟨k, 0, 1, 2, none⟩) ++ [.housekeep 1024]

/-- The index after such a history. -/
def histDir (keys : List Bytes) : Dir := ((runOps {} (hist keys)).toOption).getD {}

/-- Non-vacuity: three entries in the sorted file, a looked-up key outside slot zero whose seek lands
behind the table, and `SeekSafe` holds. -/
example : runOps {} (hist [b!"00", b!"10", b!"80"]) = .ok (histDir [b!"00", b!"10", b!"80"]) ∧
    ∃ F, (histDir [b!"00", b!"10", b!"80"]).sorted = some F ∧ SeekSafe F b!"80000000" ∧
      idKey b!"80000000" / 2 ^ (64 - tblBits F) ≠ 0 := by
  refine ⟨by decide +kernel, ((histDir [b!"00", b!"10", b!"80"]).sorted).getD [], by decide +kernel, ?_,
    by decide +kernel⟩
  refine .inr ⟨2, ?_, ?_⟩
  · decide +kernel
  · intro j h1 h2
    have : 2 ^ (tblBits (((histDir [b!"00", b!"10", b!"80"]).sorted).getD []) - 2) = 1 := by decide +kernel
    omega

/-- C03 is false in general: a single entry whose key starts with 40 is not found after
housekeeping.  The search starts at the beginning of the file, takes the table (bytes 41 61 ...) for
a record, and gives up because it is greater than the key. -/
theorem C03_counterexample_missed :
    idxIter (σ := List Entry) (histDir [b!"40"]) (some b!"400000000000000000000000") collect [] =
      .ok ([], 0) ∧
    (listing (histDir [b!"40"])).toOption.map (·.1.map (·.key)) = some [b!"400000000000000000000000"] := by
  decide +kernel

/-- C03 is false in general: looking up a present key aborts (negative seek). -/
theorem C03_counterexample_present_aborts :
    idxIter (σ := List Entry)
      (histDir [b!"40", b!"7f", b!"80", b!"90", b!"a0", b!"b0", b!"c0", b!"d0", b!"e0"])
      (some b!"400000000000000000000000") collect [] = .fail := by
  decide +kernel

/-- C03 is false in general: looking up an absent key aborts (negative seek). -/
theorem C03_counterexample_absent_aborts :
    idxIter (σ := List Entry) (histDir [b!"60", b!"80", b!"90"])
      (some b!"500000000000000000000000") collect [] = .fail := by
  decide +kernel

/-- C03 is false in general: a prefix lookup can report the table itself as a record. -/
theorem C03_counterexample_bogus_record :
    (idxIter (σ := List Entry) (histDir [b!"4180", b!"80"]) (some b!"4161") collect []).toOption.map
      (·.1.map (·.key)) = some [b!"416102000000000200000000"] := by
  decide +kernel

/-! ### C04 -/

/-- Number of 32-byte records in a possibly missing file. -/
def recsIn (o : Option Bytes) : Nat := (o.getD []).length / 32

/-- Number of records behind the table of a possibly missing sorted file. -/
def recsInSorted : Option Bytes → Nat
  | none => 0
  | some F => numRecs F

/-- C04: after any history of inserts and housekeeping runs, listing the index reports exactly the
inserted entries (as a set), one report per record in the three files, and no more reports than
inserts. -/
theorem C04_listing_complete (ops : List IdxOp) (hv : ∀ o ∈ ops, o.Valid)
    (hb : (inserts ops).length < 2 ^ 31) :
    ∃ d es r, runOps {} ops = .ok d ∧ listing d = .ok (es, r) ∧
      (∀ e, e ∈ es ↔ ∃ i ∈ inserts ops, i.entry = e) ∧
      es.length = recsInSorted d.sorted + recsIn d.appendix + recsIn d.housekeep ∧
      es.length ≤ (inserts ops).length := by
  obtain ⟨d, rs, as, hs, h1, h2, -, h4, h5⟩ :=
    reach_good ops hv ((inserts ops).length + 2 ^ 26) (by omega) (by omega)
  obtain ⟨⟨es, r⟩, l1, l2, l3⟩ := listing_good h2 (by omega) (by omega)
  simp only at l2
  refine ⟨d, es, r, h1, l1, ?_, ?_, ?_⟩
  · intro e; rw [l2, h4]
  · have e1 : recsInSorted d.sorted = rs.length := by
      have := h2.sorted
      cases hd : d.sorted with
      | none => rw [hd] at this; simp only [IsSorted] at this; simp [recsInSorted, this]
      | some F =>
        rw [hd] at this
        obtain ⟨bp0, hi, -⟩ := this
        exact hi.numRecs
    have e2 : ∀ (o : Option Bytes) (xs : List Bytes), IsApp o xs → (∀ r ∈ xs, GoodRec r) →
        recsIn o = xs.length := by
      intro o xs ho hg
      rcases ho with ⟨rfl, rfl⟩ | rfl
      · rfl
      · simp only [recsIn, Option.getD_some]
        rw [flatten_len32 xs (fun r hr => (hg r hr).len)]
        omega
    rw [l2, e1, e2 _ _ h2.app (fun r hr => h2.4 r (.inr (.inl hr))),
      e2 _ _ h2.hk (fun r hr => h2.4 r (.inr (.inr hr)))]
    simp [Nat.add_assoc]
  · rw [l2]
    simp only [List.length_map, List.length_append]
    exact h5

example : ∀ o ∈ hist [b!"00", b!"10", b!"80"], o.Valid := by
  intro o ho
  simp only [hist, List.map_cons, List.map_nil, List.cons_append, List.nil_append, List.mem_cons,
    List.not_mem_nil, or_false] at ho
  rcases ho with rfl | rfl | rfl | rfl
  all_goals
    first
    | exact ⟨by decide, by decide, by decide, by decide, by intro k hk; cases hk⟩
    | exact ⟨by decide, by decide⟩

example : (listing (histDir [b!"00", b!"80", b!"80", b!"40"])).toOption.map
      (fun r => (r.1.map (fun e => e.key.take 2), r.2)) =
    some ([b!"00", b!"40", b!"80", b!"80"], 0) := by decide +kernel

/-! ### C05 -/

theorem runOps_append (d : Dir) (a b : List IdxOp) :
    runOps d (a ++ b) = runOps d a >>= fun d' => runOps d' b := by
  induction a generalizing d with
  | nil => simp [runOps]
  | cons o a ih =>
    cases o with
    | insert i =>
      simp only [List.cons_append, runOps]
      cases idxInsert d i.id i.flags i.silo i.off i.cont <;> simp [ih]
    | housekeep n =>
      simp only [List.cons_append, runOps]
      cases idxResort n d <;> simp [ih]

theorem inserts_append (a b : List IdxOp) : inserts (a ++ b) = inserts a ++ inserts b := by
  induction a with
  | nil => rfl
  | cons o a ih => cases o <;> simp [inserts, ih]

/-- C05: after any history, one more housekeeping run with any sort size terminates without error,
leaves only the sorted file if there was an appendix, and the listings before and after have the
same entries. -/
theorem C05_housekeeping_preserves (ops : List IdxOp) (hv : ∀ o ∈ ops, o.Valid)
    (hb : (inserts ops).length < 2 ^ 31) (n : Nat) (hn : n % 32 = 0) (hn0 : 0 < n) :
    ∃ d d' es es' r r', runOps {} ops = .ok d ∧ idxResort n d = .ok d' ∧
      listing d = .ok (es, r) ∧ listing d' = .ok (es', r') ∧ (∀ e, e ∈ es' ↔ e ∈ es) ∧
      es'.length ≤ es.length ∧
      (d.appendix ≠ none → d'.appendix = none ∧ d'.housekeep = none) := by
  obtain ⟨d, rs, as, hs, h1, h2, h3, h4, h5⟩ :=
    reach_good ops hv ((inserts ops).length + 2 ^ 26) (by omega) (by omega)
  obtain ⟨⟨es, r⟩, l1, l2, l3⟩ := listing_good h2 (by omega) (by omega)
  obtain ⟨d', rs', as', hs', k1, k2, k3, k4, k5, k6, k7, k8⟩ :=
    idxResort_spec (by omega) n hn hn0 d rs as hs h2 (by omega)
  obtain ⟨⟨es', r'⟩, m1, m2, m3⟩ := listing_good k2 (by omega) (by omega)
  simp only at l2 m2
  refine ⟨d, d', es, es', r, r', h1, k1, l1, m1, ?_, ?_, k8 h3⟩
  · intro e
    rw [l2, m2]
    simp only [List.mem_map, List.mem_append, or_assoc]
    constructor
    · rintro ⟨x, hx, rfl⟩
      exact ⟨x, (k4 x).1 hx, rfl⟩
    · rintro ⟨x, hx, rfl⟩
      exact ⟨x, (k4 x).2 hx, rfl⟩
  · rw [l2, m2]
    simp only [List.length_map, List.length_append]
    omega

/-- A history with something to do: two rounds and entries left in the appendix. -/
example : ((runOps {} (hist [b!"00", b!"10"] ++ [.insert ⟨b!"20", 0, 1, 2, none⟩])).toOption.map
    fun d => (d.sorted.isSome, d.appendix.isSome)) = some (true, true) := by decide +kernel

/-! ### C06 -/

/-- A well-formed sorted index file: magic bytes, table size, whole rows, records in ascending
order. -/
structure ValidSorted (F : Bytes) : Prop where
  magic : F.take 2 = [0x41, 0x61]
  bits : 2 ≤ tblBits F ∧ tblBits F ≤ 28
  size : F.length = 8 * 2 ^ tblBits F + 32 * numRecs F
  ascending : ∀ i j, i ≤ j → j < numRecs F →
    beDec (row F (2 ^ (tblBits F - 2) + i)) ≤ beDec (row F (2 ^ (tblBits F - 2) + j))

theorem validSorted_of {F : Bytes} {bp0 : Bucket} {rs : List Bytes} (h : IsIndex F bp0 rs) : ValidSorted F := by
  obtain ⟨f1, f2, f3, f4, f5, f6⟩ := h.facts
  obtain ⟨t1, t2⟩ := h.tbl
  refine ⟨?_, by omega, ?_, ?_⟩
  · obtain ⟨w1, w2⟩ := h.word0
    have e1 : F.take 8 = F.take 2 ++ (F.drop 2).take 6 := by rw [← List.take_add]
    have l6 : ((F.drop 2).take 6).length = 6 := by simp; omega
    have b6 := beDec_lt ((F.drop 2).take 6)
    rw [e1, beDec_append, l6] at w2
    rw [l6] at b6
    have hv : beDec (F.take 2) = 0x4161 := by
      clear e1 l6 f4 f5 f6 t1 t2 h
      revert w2 b6
      generalize beDec ((F.drop 2).take 6) = x
      generalize beDec (F.take 2) = y
      intro w2 b6
      have h5 : 256 ^ 6 = 2 ^ 48 := by decide
      rw [h5] at *
      unfold INDEX_ID at w2
      omega
    apply beDec_inj
    · simp; omega
    · rw [hv]; rfl
  · rw [h.numRecs, t1, f6, Nat.pow_add]
    omega
  · rw [h.numRecs, t1]
    intro i j hij hj
    rw [row_index h hj, row_index h (by omega)]
    exact sorted_getElem h.sorted hij hj

/-- C06: in every reachable index the sorted file is well formed, and every continuation of the
history runs without error. -/
theorem C06_sorted_valid (ops more : List IdxOp) (hv : ∀ o ∈ ops ++ more, o.Valid)
    (hb : (inserts (ops ++ more)).length < 2 ^ 31) :
    ∃ d d', runOps {} ops = .ok d ∧ runOps d more = .ok d' ∧
      (∀ F, d.sorted = some F → ValidSorted F) ∧ (∀ F, d'.sorted = some F → ValidSorted F) := by
  have hB : (inserts ops).length + (inserts more).length < 2 ^ 31 := by
    rw [inserts_append, List.length_append] at hb; exact hb
  obtain ⟨d, rs, as, hs, h1, h2, h3, h4, h5⟩ :=
    reach_good ops (fun o ho => hv o (by simp [ho])) ((inserts ops).length + (inserts more).length + 2 ^ 26)
      (by omega) (by omega)
  obtain ⟨d', rs', as', hs', k1, k2, -⟩ :=
    runOps_spec (by omega) more (fun o ho => hv o (by simp [ho])) d rs as hs h2 (by omega)
  refine ⟨d, d', h1, k1, ?_, ?_⟩
  · intro F hF
    have := h2.sorted
    rw [hF] at this
    obtain ⟨bp0, hi, -⟩ := this
    exact validSorted_of hi
  · intro F hF
    have := k2.sorted
    rw [hF] at this
    obtain ⟨bp0, hi, -⟩ := this
    exact validSorted_of hi

example : ∃ F, (histDir [b!"00", b!"10"]).sorted = some F ∧ numRecs F = 2 ∧ tblBits F = 2 :=
  ⟨((histDir [b!"00", b!"10"]).sorted).getD [], by decide +kernel⟩

end Verif.Props
