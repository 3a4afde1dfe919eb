/-
Reindexing silos that hold segments of objects which were not stored completely.
-/
import Verif.Proofs.Recover

namespace Verif.Props
open Verif Header Gzip Ident Index Wsilo Segjob Getjob Spec Inflate Crash
open _root_.Verif.Reindex (Call reindexSilos reindexMain insertCalls rematch rematchOne Raw SameKey newSeg)
open _root_.Verif.Commit (upd Silo)

/-! ### The segments -/

def segsPre (fid : Bytes) : Nat → List Item → List Reindex.Seg
  | _, [] => []
  | n, x :: l => segOf fid n false x :: segsPre fid (n + 1) l

theorem kind_pre {env : Env} (he : EnvOk env) {fid : Bytes} (hfid : ∀ c ∈ fid, isHex c = true) (l : List Item) : ∀ {n : Nat}, 1 ≤ n → n + l.length < 2 ^ 63 →
    (n = 1 → ∀ x, l.head? = some x → Typed x.hdr) → SegPre env.pfx fid n l → segsL l = segsPre fid n l ∧ callsL l = [] ∧ ∀ x ∈ l, kindOf x ≠ none := by
  induction l with
  | nil => intro n _ _ _ _; exact ⟨rfl, rfl, fun x hx => (by cases hx)⟩
  | cons x l ih =>
    intro n h1 h2 h3 h4
    rw [List.length_cons] at h2
    obtain ⟨⟨rid, s1, s2, s3, s4, -⟩, h5⟩ := h4
    have ht : Typed x.hdr := by
      by_cases e : n = 1
      · exact h3 e x rfl
      · exact ⟨_, (s2 e).2, by decide⟩
    have hk := kind_segment he hfid h1 (by omega) ht s1 (fun h => (s2 h).1) s3 (congrArg Entry.flags s4)
    obtain ⟨i1, i2, i3⟩ := ih (n := n + 1) (by omega) (by omega) (fun h => by omega) h5
    refine ⟨?_, ?_, ?_⟩
    · simp only [segsL, List.filterMap_cons, hk]
      unfold segsL at i1
      simp only [Option.bind_some, Sum.getRight?_inr, i1, segsPre]
    · simp only [callsL, List.filterMap_cons, hk]
      exact i2
    · intro y hy
      rcases List.mem_cons.1 hy with rfl | hy
      · rw [hk]; simp
      · exact i3 y hy

theorem segsPre_mem {k : Nat} {fid : Bytes} (hl : fid.length = k) (l : List Item) : ∀ {n : Nat}, 1 ≤ n → (n = 1 → ∀ x, l.head? = some x → x.hdr.id = fid) →
    ∀ s ∈ segsPre fid n l, s.parent.take k = fid ∧ n ≤ s.segno ∧ (s.used = true → s.segno ≤ 1) ∧ s.done = false ∧
      ∃ x ∈ l, s.id = x.hdr.id ∧ s.flg = x.entry.flags ∧ s.silo = x.entry.silo ∧ s.off = x.entry.off := by
  induction l with
  | nil => intro n _ _ s hs; cases hs
  | cons x l ih =>
    intro n hn hh s hs
    rcases List.mem_cons.1 hs with rfl | hs
    · refine ⟨?_, Nat.le_refl _, ?_, rfl, x, by simp, rfl, rfl, rfl, rfl⟩
      · unfold segOf
        simp only
        split
        · rename_i e
          rw [hh e x rfl, List.take_of_length_le (by omega)]
        · rw [List.take_left' hl]
      · intro h
        have : n = 1 := of_decide_eq_true h
        simp only [segOf]
        omega
    · obtain ⟨a, b, c, d, y, y1, y2⟩ := ih (n := n + 1) (by omega) (fun h => by omega) s hs
      exact ⟨a, by omega, c, d, y, by simp [y1], y2⟩

theorem segsPre_uniq {k : Nat} {fid : Bytes} (hl : fid.length = k) (l : List Item) : ∀ {n : Nat}, 1 ≤ n → (n = 1 → ∀ x, l.head? = some x → x.hdr.id = fid) →
    (segsPre fid n l).Pairwise fun a b => ¬ SameKey k a b := by
  induction l with
  | nil => intro n _ _; exact .nil
  | cons x l ih =>
    intro n hn hh
    refine List.pairwise_cons.2 ⟨?_, ih (by omega) (fun h => by omega)⟩
    intro b hb hk
    have := (segsPre_mem hl l (n := n + 1) (by omega) (fun h => by omega) b hb).2.1
    have := hk.2
    simp only [segOf] at this
    omega

theorem segsPre_length {fid : Bytes} (l : List Item) : ∀ n, (segsPre fid n l).length = l.length := by
  induction l with
  | nil => intro n; rfl
  | cons x l ih => intro n; simp [segsPre, ih]

/-- The segments of the incomplete objects. -/
def others (brk : List (Item × List Item)) : List Reindex.Seg := brk.flatMap fun o => segsPre o.1.hdr.id 1 (o.1 :: o.2)

theorem pre_flag {pfx fid : Bytes} {x : Item} {l : List Item} (h : SegPre pfx fid 1 (x :: l)) : FlFirst x.entry.flags = true := by
  obtain ⟨⟨_, -, -, -, h4, -⟩, -⟩ := h
  rw [h4]
  have := (flag_seg (typeFlag_cases x.hdr) true false).2.2.1
  simpa only [Ins.entry, if_true, Bool.false_eq_true, if_false] using this

theorem pre_hex {pfx fid : Bytes} (l : List Item) : ∀ {n : Nat}, SegPre pfx fid n l → ∀ x ∈ l, ∀ c ∈ x.hdr.id, isHex c = true := by
  induction l with
  | nil => intro n _ x hx; cases hx
  | cons y l ih =>
    intro n h x hx
    obtain ⟨⟨_, -, -, -, -, h5⟩, h6⟩ := h
    rcases List.mem_cons.1 hx with rfl | hx
    · exact h5
    · exact ih h6 x hx

theorem hdrs_hex {pfx fid : Bytes} (l : List Item) : ∀ {n : Nat}, SegHdrs pfx fid n l → ∀ x ∈ l, ∀ c ∈ x.hdr.id, isHex c = true := by
  induction l with
  | nil => intro n _ x hx; cases hx
  | cons y l ih =>
    intro n h x hx
    obtain ⟨-, -, -, -, h5, h6⟩ := h
    rcases List.mem_cons.1 hx with rfl | hx
    · exact h5
    · exact ih h6 x hx

theorem others_mem {env : Env} {brk : List (Item × List Item)} (h : ∀ o ∈ brk, SegPre env.pfx o.1.hdr.id 1 (o.1 :: o.2) ∧ Typed o.1.hdr ∧ o.1.hdr.id.length = env.idSize) :
    ∀ s ∈ others brk, (∃ o ∈ brk, s.parent.take env.idSize = o.1.hdr.id) ∧ 1 ≤ s.segno ∧ (s.used = true → s.segno ≤ 1) ∧ s.done = false ∧
      ∃ x ∈ brk.flatMap (fun o => o.1 :: o.2), s.id = x.hdr.id ∧ s.flg = x.entry.flags ∧ s.silo = x.entry.silo ∧ s.off = x.entry.off := by
  intro s hs
  obtain ⟨o, ho, hs⟩ := List.mem_flatMap.1 hs
  obtain ⟨a, b, c, d, x, x1, x2⟩ := segsPre_mem (h o ho).2.2 (o.1 :: o.2) (n := 1) (by omega) (fun _ x hx => by cases hx; rfl) s hs
  exact ⟨⟨o, ho, a⟩, b, c, d, x, List.mem_flatMap.2 ⟨o, ho, x1⟩, x2⟩

theorem others_length (brk : List (Item × List Item)) : (others brk).length = (brk.flatMap (fun o => o.1 :: o.2)).length := by
  unfold others
  induction brk with
  | nil => rfl
  | cons o brk ih => rw [List.flatMap_cons, List.flatMap_cons, List.length_append, List.length_append, ih, segsPre_length]

theorem others_raw {env : Env} (brk : List (Item × List Item)) (h : ∀ o ∈ brk, SegPre env.pfx o.1.hdr.id 1 (o.1 :: o.2) ∧ Typed o.1.hdr ∧ o.1.hdr.id.length = env.idSize)
    (hf : FirstsDiffer (brk.flatMap (fun o => o.1 :: o.2))) : Raw env.idSize (others brk) := by
  have hm := others_mem h
  refine ⟨?_, fun s hs => (hm s hs).2.2.1, fun s hs => (hm s hs).2.1, fun s hs t _ hd => ?_, fun s hs hd => ?_⟩
  · clear hm
    induction brk with
    | nil => exact .nil
    | cons o brk ih =>
      unfold FirstsDiffer at hf
      rw [List.flatMap_cons, List.pairwise_append] at hf
      obtain ⟨-, f2, f3⟩ := hf
      unfold others
      rw [List.flatMap_cons, List.pairwise_append]
      refine ⟨segsPre_uniq (h o (by simp)).2.2 _ (by omega) (fun _ x hx => by cases hx; rfl), ih (fun o ho => h o (by simp [ho])) f2, ?_⟩
      intro a ha b hb hk
      have h1 := (segsPre_mem (h o (by simp)).2.2 (o.1 :: o.2) (n := 1) (by omega) (fun _ x hx => by cases hx; rfl) a ha).1
      obtain ⟨⟨o', ho', h2⟩, -⟩ := others_mem (env := env) (brk := brk) (fun o ho => h o (by simp [ho])) b hb
      refine f3 o.1 (by simp) o'.1 (List.mem_flatMap.2 ⟨o', ho', by simp⟩) (pre_flag (h o (by simp)).1) (pre_flag (h o' (by simp [ho'])).1) ?_
      rw [← h1, ← h2]
      exact hk.1
  · rw [(hm s hs).2.2.2.1] at hd; cases hd
  · have := hd.2
    rw [(hm s hs).2.2.2.1] at this; cases this

theorem broken_kinds {env : Env} (he : EnvOk env) (brk : List (Item × List Item)) (h : ∀ o ∈ brk, SegPre env.pfx o.1.hdr.id 1 (o.1 :: o.2) ∧ Typed o.1.hdr ∧
    (o.1 :: o.2).length + 1 < 2 ^ 63) :
    segsL (brk.flatMap (fun o => o.1 :: o.2)) = others brk ∧ callsL (brk.flatMap (fun o => o.1 :: o.2)) = [] ∧
    ∀ x ∈ brk.flatMap (fun o => o.1 :: o.2), kindOf x ≠ none := by
  induction brk with
  | nil => exact ⟨rfl, rfl, fun x hx => (by cases hx)⟩
  | cons o brk ih =>
    obtain ⟨i1, i2, i3⟩ := ih fun y hy => h y (by simp [hy])
    obtain ⟨a1, a2, a3⟩ := h o (by simp)
    obtain ⟨b1, b2, b3⟩ := kind_pre he (pre_hex _ a1 o.1 (by simp)) (o.1 :: o.2) (n := 1) (by omega) (by omega) (fun _ x hx => by cases hx; exact a2) a1
    have sa : ∀ a b, segsL (a ++ b) = segsL a ++ segsL b := fun a b => List.filterMap_append
    have ca : ∀ a b, callsL (a ++ b) = callsL a ++ callsL b := fun a b => List.filterMap_append
    rw [List.flatMap_cons]
    refine ⟨?_, ?_, ?_⟩
    · rw [sa, b1, i1]
      rfl
    · rw [ca, b2, i2]; rfl
    · intro x hx
      rcases List.mem_append.1 hx with hx | hx
      · exact b3 x hx
      · exact i3 x hx

theorem segsL_id {L : List Item} {s : Reindex.Seg} (h : s ∈ segsL L) : ∃ x ∈ L, s.id = x.hdr.id := by
  unfold segsL at h
  obtain ⟨x, hx, e⟩ := List.mem_filterMap.1 h
  refine ⟨x, hx, ?_⟩
  cases hk : kindOf x with
  | none => rw [hk] at e; cases e
  | some κ =>
    rw [hk] at e
    cases κ with
    | inl c => cases e
    | inr t =>
      cases e
      unfold kindOf at hk
      split at hk
      · split at hk
        · cases hk
        · split at hk
          · rename_i hs
            cases hk
            unfold newSeg at hs
            simp only [Res.bind_eq_ok, Res.pure_eq, Res.ok.injEq] at hs
            obtain ⟨p, -, rfl⟩ := hs
            rfl
          · cases hk
      · cases hk

/-! ### Matching what is left over -/

theorem rematchOne_calls (key cont : Bytes) (segs : List Reindex.Seg) : (∀ c ∈ (rematchOne key cont segs).1, ∃ s ∈ segs, c = ⟨s.id, s.flg, s.silo, s.off, some cont⟩) ∧
    (∀ s ∈ (rematchOne key cont segs).2, s ∈ segs) ∧ (rematchOne key cont segs).1.length + (rematchOne key cont segs).2.length = segs.length := by
  induction segs with
  | nil => exact ⟨fun c hc => (by cases hc), fun s hs => (by cases hs), rfl⟩
  | cons s segs ih =>
    obtain ⟨i1, i2, i3⟩ := ih
    unfold rematchOne
    simp only
    split
    · refine ⟨?_, fun t ht => List.mem_cons_of_mem _ (i2 t ht), by simp only [List.length_cons]; omega⟩
      intro c hc
      rcases List.mem_cons.1 hc with rfl | hc
      · exact ⟨s, by simp, rfl⟩
      · obtain ⟨t, ht, e⟩ := i1 c hc
        exact ⟨t, by simp [ht], e⟩
    · refine ⟨?_, ?_, by simp only [List.length_cons]; omega⟩
      · intro c hc
        obtain ⟨t, ht, e⟩ := i1 c hc
        exact ⟨t, by simp [ht], e⟩
      · intro t ht
        rcases List.mem_cons.1 ht with rfl | ht
        · simp
        · exact List.mem_cons_of_mem _ (i2 t ht)

theorem rematch_calls (es : List Entry) : ∀ segs : List Reindex.Seg,
    (∀ c ∈ (rematch es segs).1, ∃ s ∈ segs, ∃ e ∈ es, c = ⟨s.id, s.flg, s.silo, s.off, some e.cont⟩) ∧
    (∀ s ∈ (rematch es segs).2, s ∈ segs) ∧ (rematch es segs).1.length + (rematch es segs).2.length = segs.length := by
  induction es with
  | nil => intro segs; exact ⟨fun c hc => (by cases hc), fun s hs => hs, by simp [rematch]⟩
  | cons e es ih =>
    intro segs
    unfold rematch
    split
    · obtain ⟨i1, i2, i3⟩ := ih segs
      refine ⟨?_, i2, i3⟩
      intro c hc
      obtain ⟨s, hs, e, he, h⟩ := i1 c hc
      exact ⟨s, hs, e, by simp [he], h⟩
    · simp only
      obtain ⟨j1, j2, j3⟩ := rematchOne_calls e.key e.cont segs
      obtain ⟨i1, i2, i3⟩ := ih (rematchOne e.key e.cont segs).2
      refine ⟨?_, fun s hs => j2 s (i2 s hs), ?_⟩
      · intro c hc
        rcases List.mem_append.1 hc with hc | hc
        · obtain ⟨s, hs, h⟩ := j1 c hc
          exact ⟨s, hs, e, by simp, h⟩
        · obtain ⟨s, hs, e, he, h⟩ := i1 c hc
          exact ⟨s, j2 s hs, e, by simp [he], h⟩
      · rw [List.length_append]
        omega

/-! ### The new archive -/

/-- The record `r` with another continuation in its index entry. -/
def SameRecord (r z : Item) : Prop := z.hdr = r.hdr ∧ z.record = r.record ∧ z.entry = { r.entry with cont := z.entry.cont }

/-- An index entry for a record that is there. -/
theorem call_item {env : Env} {s : Nat → Option Silo} {r : Item} (hr : Onsite env s r) (hx : ∀ c ∈ r.hdr.id, isHex c = true) (hk : r.entry.key = padKey 24 r.hdr.id) {c : Call}
    (h1 : c.id = r.hdr.id) (h2 : c.flags = r.entry.flags) (h3 : c.silo = r.entry.silo) (h4 : c.off = r.entry.off) (hc : ∀ k, c.cont = some k → ∀ a ∈ k, isHex a = true) :
    (toIns c).Valid ∧ ∃ z, z.entry = (toIns c).entry ∧ SameRecord r z ∧ Onsite env s z := by
  obtain ⟨a1, a2, i, ⟨v1, v2, v3, v4, v5⟩, e⟩ := hr
  have q1 := congrArg Entry.flags e
  have q2 := congrArg Entry.silo e
  have q3 := congrArg Entry.off e
  simp only [Ins.entry] at q1 q2 q3
  have hv : (toIns c).Valid := by
    refine ⟨by simp only [toIns, h1]; exact hx, ?_, ?_, ?_, hc⟩
    · simp only [toIns, h2, ← q1]; exact v2
    · simp only [toIns, h3, ← q2]; exact v3
    · simp only [toIns, h4, ← q3]; exact v4
  refine ⟨hv, { r with entry := (toIns c).entry }, rfl, ⟨rfl, rfl, ?_⟩, ?_, a2, _, hv, rfl⟩
  · simp only [Ins.entry, toIns, h1, h2, h3, h4, ← hk]
  · obtain ⟨⟨f, pre, post, k1, k2, k3⟩, k4⟩ := a1
    exact ⟨⟨f, pre, post, by simp only [Ins.entry, toIns, h3]; exact k1, k2, by simp only [Ins.entry, toIns, h4]; exact k3⟩, k4⟩

/-- Calls for records that are there. -/
theorem call_items {env : Env} {s : Nat → Option Silo} {B : List Item} (hB : ∀ r ∈ B, Onsite env s r ∧ (∀ c ∈ r.hdr.id, isHex c = true) ∧ r.entry.key = padKey 24 r.hdr.id)
    (C : List Call) : (∀ c ∈ C, (∃ r ∈ B, c.id = r.hdr.id ∧ c.flags = r.entry.flags ∧ c.silo = r.entry.silo ∧ c.off = r.entry.off) ∧
      ∀ k, c.cont = some k → ∀ a ∈ k, isHex a = true) →
    ∃ Z : List Item, Z.map (·.entry) = C.map (fun c => (toIns c).entry) ∧ (∀ z ∈ Z, Onsite env s z ∧ ∃ r ∈ B, SameRecord r z) ∧ ∀ c ∈ C, (toIns c).Valid := by
  induction C with
  | nil => intro _; exact ⟨[], rfl, fun z hz => (by cases hz), fun c hc => (by cases hc)⟩
  | cons c C ih =>
    intro h
    obtain ⟨Z, z1, z2, z3⟩ := ih fun c hc => h c (by simp [hc])
    obtain ⟨⟨r, hr, h1, h2, h3, h4⟩, hc⟩ := h c (by simp)
    obtain ⟨v, z, e, e2, e3⟩ := call_item (hB r hr).1 (hB r hr).2.1 (hB r hr).2.2 h1 h2 h3 h4 hc
    refine ⟨z :: Z, by rw [List.map_cons, List.map_cons, z1, e], ?_, ?_⟩
    · intro y hy
      rcases List.mem_cons.1 hy with rfl | hy
      · exact ⟨e3, r, hr, e2⟩
      · exact z2 y hy
    · intro d hd
      rcases List.mem_cons.1 hd with rfl | hd
      · exact v
      · exact z3 d hd

theorem pre_key {pfx fid : Bytes} (l : List Item) : ∀ {n : Nat}, SegPre pfx fid n l → ∀ x ∈ l, x.entry.key = padKey 24 x.hdr.id := by
  induction l with
  | nil => intro n _ x hx; cases hx
  | cons y l ih =>
    intro n h x hx
    obtain ⟨⟨_, -, -, -, h4, -⟩, h6⟩ := h
    rcases List.mem_cons.1 hx with rfl | hx
    · exact (congrArg Entry.key h4 :)
    · exact ih h6 x hx

/-- Reindexing silos that consist of complete records. -/
theorem reindex_pieces {env : Env} (he : EnvOk env) {w : World} {R P : List Item} {objs brk : List (Item × List Item)} {I : List Item}
    (hl : Layout w.silos R) (hh : ∀ z ∈ R, Onsite env w.silos z) (hp : Pieces env R P objs brk I) (hf : FirstsDiffer R) (hfew : R.length < 2 ^ 30)
    {ns : List Nat} (hnd : ns.Nodup) (hns : ∀ n, n ∈ ns ↔ w.silos n ≠ none) {sort fuel : Nat} (hsort : sort % 32 = 0 ∧ 0 < sort)
    (hfuel : ∀ n f, w.silos n = some f → f.data.length < fuel) :
    ∃ d S ops A Z, reindexMain env.ps env.pfx env.idSize sort fuel w.silos ns {} = .ok (d, S) ∧ ArchInv env { w with dir := d } ops A ∧
      A.Perm (P ++ (objs.flatMap (fun o => o.1 :: o.2) ++ (I ++ Z))) ∧ A.length < 2 ^ 31 ∧
      (∀ z ∈ Z, ∃ r ∈ brk.flatMap (fun o => o.1 :: o.2), SameRecord r z) ∧ ∀ s ∈ S, ∃ r ∈ brk.flatMap (fun o => o.1 :: o.2), s.id = r.hdr.id := by
  -- the records in the order of reading
  obtain ⟨Y, hY⟩ := Classical.axiomOfChoice (r := fun n (X : List Item) => n ∈ ns → ∃ f, w.silos n = some f ∧ X.Perm (R.filter fun x => x.entry.silo = n) ∧
      f.data = siloBytes (X.map (·.record)) ∧ X.map (·.entry.off) = offsets 0 (X.map (·.record))) (fun n => by
    by_cases hn : n ∈ ns
    · have := (hns n).1 hn
      cases h : w.silos n with
      | none => exact absurd h this
      | some f =>
        obtain ⟨X, x1, x2, x3⟩ := hl n f h
        exact ⟨X, fun _ => ⟨f, rfl, x1, x2, x3⟩⟩
    · exact ⟨[], fun h => absurd h hn⟩)
  have hperm : (ns.flatMap Y).Perm R := by
    refine List.Perm.trans (_root_.Verif.Reindex.flatMap_perm (g := fun n => R.filter fun x => x.entry.silo = n) _ fun n hn => ?_) (by_silo (·.entry.silo) ns R hnd ?_)
    · obtain ⟨f, -, x1, -⟩ := hY n hn
      exact x1
    · intro x hx
      obtain ⟨⟨⟨f, _, _, e, -⟩, -⟩, -⟩ := hh x hx
      rw [hns, e]
      simp
  obtain ⟨O, hO⟩ : ∃ O, objs.flatMap (fun o => o.1 :: o.2) = O := ⟨_, rfl⟩
  obtain ⟨B, hB⟩ : ∃ B, brk.flatMap (fun o => o.1 :: o.2) = B := ⟨_, rfl⟩
  have hpp := hp.perm
  rw [hO, hB] at hpp
  have hall := hperm.trans hpp
  have hlen := hpp.length_eq
  simp only [List.length_append] at hlen
  have inR : ∀ x, x ∈ P ∨ x ∈ O ∨ x ∈ B ∨ x ∈ I → x ∈ R := by
    intro x hx
    refine hpp.mem_iff.2 ?_
    simpa only [List.mem_append] using hx
  -- what the records are
  obtain ⟨p1, p2, p3, p4⟩ := singles P fun x hx => kind_plain (hp.plain x hx).1 (hp.plain x hx).2
  obtain ⟨i1, i2, i3, i4⟩ := singles I fun x hx => kind_info he (hp.info x hx)
  have hobj : ∀ o ∈ objs, (o.1 :: o.2).length ≤ O.length := by
    intro o ho
    rw [← hO]
    exact List.Sublist.length_le (List.sublist_flatten_of_mem (List.mem_map.2 ⟨o, ho, rfl⟩))
  have hbrk : ∀ o ∈ brk, (o.1 :: o.2).length ≤ B.length := by
    intro o ho
    rw [← hB]
    exact List.Sublist.length_le (List.sublist_flatten_of_mem (List.mem_map.2 ⟨o, ho, rfl⟩))
  obtain ⟨o1, o2, o3, o4⟩ := several he objs fun o ho => by
    have := hobj o ho
    exact ⟨(hp.several o ho).2.1, (hp.several o ho).2.2.1, by omega⟩
  obtain ⟨b1, b2, b3⟩ := broken_kinds he brk fun o ho => by
    have := hbrk o ho
    exact ⟨(hp.broken o ho).1, (hp.broken o ho).2.1, by omega⟩
  rw [hO] at o1 o2 o3 o4
  rw [hB] at b1 b2 b3
  have hhex : ∀ x ∈ R, ∀ c ∈ x.hdr.id, isHex c = true := by
    intro x hx
    have hx := hpp.mem_iff.1 hx
    simp only [List.mem_append] at hx
    rcases hx with hx | hx | hx | hx
    · exact (hp.plain x hx).1.2.2
    · rw [← hO] at hx
      obtain ⟨o, ho, hx⟩ := List.mem_flatMap.1 hx
      exact hdrs_hex _ (hp.several o ho).2.1 x hx
    · rw [← hB] at hx
      obtain ⟨o, ho, hx⟩ := List.mem_flatMap.1 hx
      exact pre_hex _ (hp.broken o ho).1 x hx
    · exact (infoHdr_ok he (hp.info x hx).2.1).2.1
  have hbk : ∀ r ∈ B, Onsite env w.silos r ∧ (∀ c ∈ r.hdr.id, isHex c = true) ∧ r.entry.key = padKey 24 r.hdr.id := by
    intro r hr
    have hr1 := inR r (.inr (.inr (.inl hr)))
    refine ⟨hh r hr1, hhex r hr1, ?_⟩
    rw [← hB] at hr
    obtain ⟨o, ho, hx⟩ := List.mem_flatMap.1 hr
    exact pre_key _ (hp.broken o ho).1 r hx
  have sa : ∀ a b, segsL (a ++ b) = segsL a ++ segsL b := fun a b => List.filterMap_append
  have ca : ∀ a b, callsL (a ++ b) = callsL a ++ callsL b := fun a b => List.filterMap_append
  have hsegs : (segsL (ns.flatMap Y)).Perm ((objs.map fun o => segsOf o.1.hdr.id 1 (o.1 :: o.2)).flatten ++ others brk) := by
    have : (segsL (ns.flatMap Y)).Perm (segsL (P ++ (O ++ (B ++ I)))) := hall.filterMap _
    rw [sa, sa, sa, p1, i1, o1, b1, List.nil_append, List.append_nil] at this
    exact this
  -- no two incomplete objects have the same ID
  have hfirst := firsts_perm hpp hf
  have hfO : FirstsDiffer O := by
    unfold FirstsDiffer at hfirst ⊢
    rw [List.pairwise_append, List.pairwise_append] at hfirst
    exact hfirst.2.1.1
  have hfB : FirstsDiffer B := by
    unfold FirstsDiffer at hfirst ⊢
    rw [List.pairwise_append, List.pairwise_append, List.pairwise_append] at hfirst
    exact hfirst.2.1.2.1.1
  have hfOB : ∀ x ∈ O, ∀ y ∈ B, FlFirst x.entry.flags = true → FlFirst y.entry.flags = true → x.hdr.id ≠ y.hdr.id := by
    unfold FirstsDiffer at hfirst
    rw [List.pairwise_append, List.pairwise_append] at hfirst
    intro x hx y hy
    exact hfirst.2.1.2.2 x hx y (List.mem_append_left _ hy)
  have hom := others_mem hp.broken
  have hmix : Mixed env.idSize (objs.map fun o => (o.1.hdr.id, segsOf o.1.hdr.id 1 (o.1 :: o.2))) (others brk) := by
    refine ⟨?_, ?_, ?_, others_raw brk hp.broken (by rw [hB]; exact hfB)⟩
    · intro z hz
      obtain ⟨o, ho, rfl⟩ := List.mem_map.1 hz
      obtain ⟨s1, s2, s3, s4⟩ := hp.several o ho
      refine ⟨segsOf_chain s4 o.2 (fun _ => rfl) (by omega), ?_⟩
      rw [segsOf_length, List.length_cons]
      have : 0 < o.2.length := List.length_pos_iff.2 s1
      omega
    · rw [List.pairwise_map]
      exact firsts_objs objs (fun o ho => (hp.several o ho).2.1) (by rw [hO]; exact hfO)
    · intro z hz s hs
      obtain ⟨o, ho, rfl⟩ := List.mem_map.1 hz
      obtain ⟨⟨o', ho', e⟩, -⟩ := hom s hs
      rw [e]
      refine Ne.symm (hfOB o.1 ?_ o'.1 ?_ (first_flag (hp.several o ho).2.1) (pre_flag (hp.broken o' ho').1))
      · rw [← hO]; exact List.mem_flatMap.2 ⟨o, ho, by simp⟩
      · rw [← hB]; exact List.mem_flatMap.2 ⟨o', ho', by simp⟩
  obtain ⟨C1, C', L, m1, m2, m3, m4, m5, m6⟩ := C39_links (order := segsL (ns.flatMap Y)) hmix (by
    simpa only [List.map_map, Function.comp_def] using hsegs)
  rw [others_length, hB] at m5 m6
  rw [hB] at hom
  obtain ⟨C, c1, c2⟩ := proc_meet (k := env.idSize) (ns.flatMap Y) (by
    intro x hx
    have hx := hall.mem_iff.1 hx
    simp only [List.mem_append] at hx
    rcases hx with hx | hx | hx | hx
    · exact p4 x hx
    · exact o4 x hx
    · exact b3 x hx
    · exact i4 x hx) m1
  have hcalls : (callsL (ns.flatMap Y)).Perm (callsL P ++ callsL I) := by
    have : (callsL (ns.flatMap Y)).Perm (callsL (P ++ (O ++ (B ++ I)))) := hall.filterMap _
    rw [ca, ca, ca, o2, b2, List.nil_append, List.nil_append] at this
    exact this
  simp only [List.map_map, Function.comp_def] at m2
  have hC : C.Perm ((callsL P ++ callsL I) ++ ((objs.map fun o => links (segsOf o.1.hdr.id 1 (o.1 :: o.2))).flatten ++ C')) :=
    c2.trans (List.Perm.append hcalls m2)
  -- the entries for incomplete objects
  obtain ⟨Z0, z1, z2, z3⟩ := call_items hbk C' (by
    intro c hc
    obtain ⟨s, hs, q1, q2, q3, q4, q5⟩ := m3 c hc
    obtain ⟨-, -, -, -, r, hr, r1, r2, r3, r4⟩ := hom s hs
    refine ⟨⟨r, hr, q1.trans r1, q2.trans r2, q3.trans r3, q4.trans r4⟩, ?_⟩
    intro k hk
    obtain ⟨t, ht, rfl⟩ := q5 k hk
    obtain ⟨x, hx, e⟩ := segsL_id ht
    rw [e]
    exact hhex x (hperm.mem_iff.1 hx))
  have hZ0 : Z0.length = C'.length := by
    have := congrArg List.length z1
    simpa using this
  have hent : (C.map fun c => (toIns c).entry).Perm ((P ++ (O ++ (I ++ Z0))).map (·.entry)) := by
    refine (hC.map _).trans ?_
    rw [List.map_append, List.map_append, List.map_append, p2, i2, o3, ← z1, List.map_append, List.map_append, List.map_append, List.append_assoc]
    exact List.Perm.append_left _ (List.perm_append_comm_assoc _ _ _)
  have hon : ∀ x ∈ P ++ (O ++ (I ++ Z0)), Onsite env w.silos x := by
    intro x hx
    simp only [List.mem_append] at hx
    rcases hx with hx | hx | hx | hx
    · exact hh x (inR x (.inl hx))
    · exact hh x (inR x (.inr (.inl hx)))
    · exact hh x (inR x (.inr (.inr (.inr hx))))
    · exact (z2 x hx).1
  have hvalid : ∀ c ∈ C, (toIns c).Valid := by
    intro c hc
    obtain ⟨x, hx, hxe⟩ := List.mem_map.1 (hent.mem_iff.1 (List.mem_map.2 ⟨c, hc, rfl⟩))
    obtain ⟨-, -, i, ⟨-, v2, v3, v4, -⟩, hie⟩ := hon x hx
    rw [hxe] at hie
    have q1 := congrArg Entry.flags hie
    have q2 := congrArg Entry.silo hie
    have q3 := congrArg Entry.off hie
    simp only [Ins.entry] at q1 q2 q3
    have hhex2 : (∀ a ∈ c.id, isHex a = true) ∧ ∀ k, c.cont = some k → ∀ a ∈ k, isHex a = true := by
      rcases List.mem_append.1 (hC.mem_iff.1 hc) with h | h
      · have := (List.mem_append.1 h).elim (p3 c) (i3 c)
        exact ⟨this.1, fun k hk => by rw [this.2] at hk; cases hk⟩
      · rcases List.mem_append.1 h with h | h
        · obtain ⟨l, hl, h⟩ := List.mem_flatten.1 h
          obtain ⟨o, ho, rfl⟩ := List.mem_map.1 hl
          exact links_hex o.2 (hp.several o ho).2.1 c h
        · exact ⟨(z3 c h).1, (z3 c h).2.2.2.2⟩
    exact ⟨hhex2.1, by rw [← q1]; exact v2, by rw [← q2]; exact v3, by rw [← q3]; exact v4, hhex2.2⟩
  obtain ⟨ops', e1, e2, e3⟩ := reindexSilos_ops hsort (ps := env.ps) (pfx := env.pfx) (fuel := fuel) (silos := w.silos) ns (by
    intro n hn
    obtain ⟨f, f1, f2, f3, f4⟩ := hY n hn
    refine ⟨f, f1, f3, f4, hfuel n f f1, ?_⟩
    intro x hx
    obtain ⟨x1, x2⟩ := List.mem_filter.1 (f2.mem_iff.1 hx)
    exact ⟨of_decide_eq_true x2, (hh x x1).1.2⟩) c1
  have hops : ∀ o ∈ ops', o.Valid := by
    intro o ho
    rcases e2 o ho with ⟨c, hc, rfl⟩ | rfl
    · exact hvalid c hc
    · exact hsort
  obtain ⟨A0, a1, a2⟩ := perm_map_lift hent _ rfl
  have hA0 := a1.length_eq
  simp only [List.length_append] at hA0
  have hnum : (inserts ops').length = A0.length := by
    rw [e1, List.length_map, ← List.length_map (f := fun c => (toIns c).entry), ← a2, List.length_map]
  obtain ⟨d0, es, r, r1, r2, r3, -⟩ := C04_listing_complete ops' hops (by omega)
  have hA : ArchInv env { w with dir := d0 } ops' A0 := by
    refine ⟨r1, hops, ?_, fun x hx => (hon x (a1.mem_iff.1 hx)).1, fun x hx => (hon x (a1.mem_iff.1 hx)).2.1⟩
    rw [e1, a2, List.map_map]
    rfl
  have hrs := e3 _ _ r1
  have hS : ∀ s ∈ L, ∃ r ∈ B, s.id = r.hdr.id ∧ s.flg = r.entry.flags ∧ s.silo = r.entry.silo ∧ s.off = r.entry.off := by
    intro s hs
    obtain ⟨t, ht, q1, q2, q3, q4⟩ := m4 s hs
    obtain ⟨-, -, -, -, r, hr, t1, t2, t3, t4⟩ := hom t ht
    exact ⟨r, hr, q1.trans t1, q2.trans t2, q3.trans t3, q4.trans t4⟩
  by_cases hL : L = []
  · refine ⟨d0, [], ops', A0, Z0, ?_, hA, by rw [hO]; exact a1, by omega, fun z hz => by rw [hB]; exact (z2 z hz).2, fun s hs => by cases hs⟩
    unfold reindexMain
    rw [hrs]
    simp [hL]
  · obtain ⟨t1, t2, t3⟩ := rematch_calls es L
    obtain ⟨Z1, y1, y2, y3⟩ := call_items hbk (rematch es L).1 (by
      intro c hc
      obtain ⟨s, hs, e, hes, rfl⟩ := t1 c hc
      obtain ⟨r, hr, q1, q2, q3, q4⟩ := hS s hs
      refine ⟨⟨r, hr, q1, q2, q3, q4⟩, ?_⟩
      intro k hk
      cases hk
      obtain ⟨i, hi, hie⟩ := (r3 e).1 hes
      have : e ∈ A0.map (·.entry) := by rw [← hA.entries]; exact List.mem_map.2 ⟨i, hi, hie⟩
      obtain ⟨x, hx, rfl⟩ := List.mem_map.1 this
      exact (arch_cont hA hx).1)
    have hZ1 : Z1.length = (rematch es L).1.length := by
      have := congrArg List.length y1
      simpa using this
    obtain ⟨d, -, -, s1, -⟩ := C04_listing_complete (ops' ++ (rematch es L).1.map fun c => .insert (toIns c)) (by
      intro o ho
      rcases List.mem_append.1 ho with ho | ho
      · exact hops o ho
      · obtain ⟨c, hc, rfl⟩ := List.mem_map.1 ho
        exact y3 c hc) (by
      rw [inserts_append, inserts_calls, List.length_append, List.length_map, hnum]
      omega)
    have hd : runOps d0 ((rematch es L).1.map fun c => .insert (toIns c)) = .ok d := by
      rw [runOps_append, r1] at s1
      exact s1
    refine ⟨d, (rematch es L).2, _, A0 ++ Z1, Z0 ++ Z1, ?_,
      archInv_add (w' := { w with dir := d }) hA ((rematch es L).1.map toIns) Z1 ?_ ?_ ?_ (grown_refl _) (fun x hx => ⟨(y2 x hx).1.1, (y2 x hx).1.2.1⟩), ?_, ?_, ?_, ?_⟩
    · unfold reindexMain
      rw [hrs]
      have hli : idxIter d0 none (fun l e => (l ++ [e], (0 : Int))) [] = .ok (es, r) := r2
      simp only [Res.ok_bind, if_neg hL, hli, insertCalls_runOps, hd, Res.pure_eq]
    · intro i hi
      obtain ⟨c, hc, rfl⟩ := List.mem_map.1 hi
      exact y3 c hc
    · rw [List.map_map]
      exact hd
    · rw [List.map_map, y1]
      rfl
    · rw [hO]
      refine (List.Perm.append_right Z1 a1).trans ?_
      simp only [List.append_assoc]
      exact .refl _
    · rw [List.length_append]
      omega
    · intro z hz
      rw [hB]
      rcases List.mem_append.1 hz with hz | hz
      · exact (z2 z hz).2
      · exact (y2 z hz).2
    · intro s hs
      rw [hB]
      obtain ⟨r, hr, q1, -⟩ := hS s (t2 s hs)
      exact ⟨r, hr, q1⟩

end Verif.Props
