/-
Reindexing some of the silos of an archive, into the index that it has.
-/
import Verif.Proofs.RecoverIndex
import Verif.Props.ReindexAgain
import Verif.Model.ReindexArgs
import Verif.Proofs.Silo

namespace Verif.Props
open Verif Header Gzip Ident Index Wsilo Segjob Getjob Spec Inflate Crash
open _root_.Verif.Reindex (Call reindexSilos reindexMain insertCalls rematch rematchOne Raw SameKey newSeg Inv due mark leftOver)
open _root_.Verif.Commit (upd Silo)

/-- No two segments have IDs that agree in the first 16 digits. -/
def SegmentsDiffer (A : List Item) : Prop :=
  A.Pairwise fun x y => FlSegmented x.entry.flags = true → FlSegmented y.entry.flags = true → x.entry.key.take 16 ≠ y.entry.key.take 16

/-- The IDs of segments begin as the index has them: with 16 digits that are written with small letters. -/
def SegmentsLower (A : List Item) : Prop := ∀ x ∈ A, FlSegmented x.entry.flags = true → x.hdr.id.take 16 = x.entry.key.take 16

theorem segmentsDiffer_perm {A B : List Item} (h : A.Perm B) (ha : SegmentsDiffer A) : SegmentsDiffer B :=
  (h.pairwise_iff fun h a b => (h b a).symm).1 ha

theorem segmentsDiffer_eq {A : List Item} (h : SegmentsDiffer A) : ∀ x ∈ A, ∀ y ∈ A, FlSegmented x.entry.flags = true → FlSegmented y.entry.flags = true →
    x.entry.key.take 16 = y.entry.key.take 16 → x = y := by
  induction A with
  | nil => intro x hx; cases hx
  | cons a A ih =>
    obtain ⟨h1, h2⟩ := List.pairwise_cons.1 h
    intro x hx y hy fx fy e
    rcases List.mem_cons.1 hx with hxa | hxa <;> rcases List.mem_cons.1 hy with hya | hya
    · rw [hxa, hya]
    · subst hxa
      exact absurd e (h1 y hya fx fy)
    · subst hya
      exact absurd e.symm (h1 x hxa fy fx)
    · exact ih h2 x hxa y hya fx fy e

theorem hdrs_item {pfx fid : Bytes} (l : List Item) : ∀ {n : Nat}, SegHdrs pfx fid n l → ∀ x ∈ l, x.entry.key = padKey 24 x.hdr.id ∧ FlSegmented x.entry.flags = true := by
  induction l with
  | nil => intro n _ x hx; cases hx
  | cons y l ih =>
    intro n h x hx
    obtain ⟨-, -, -, h4, -, h6⟩ := h
    rcases List.mem_cons.1 hx with rfl | hx
    · refine ⟨(congrArg Entry.key h4 :), ?_⟩
      rw [h4]
      have := (flag_seg (typeFlag_cases x.hdr) (decide (n = 1)) l.isEmpty).1
      simpa only [Ins.entry, decide_eq_true_eq] using this
    · exact ih h6 x hx

theorem segsOf_mem {fid : Bytes} (l : List Item) : ∀ {n : Nat}, ∀ s ∈ segsOf fid n l, ∃ x ∈ l, s.id = x.hdr.id ∧ s.flg = x.entry.flags ∧ s.silo = x.entry.silo ∧ s.off = x.entry.off := by
  induction l with
  | nil => intro n s hs; cases hs
  | cons x l ih =>
    intro n s hs
    rcases List.mem_cons.1 hs with rfl | hs
    · exact ⟨x, by simp, rfl, rfl, rfl, rfl⟩
    · obtain ⟨y, hy, h⟩ := ih s hs
      exact ⟨y, by simp [hy], h⟩

theorem segments_objs {pfx : Bytes} (objs : List (Item × List Item)) (h : ∀ o ∈ objs, SegHdrs pfx o.1.hdr.id 1 (o.1 :: o.2))
    (hf : SegmentsDiffer (objs.flatMap (fun o => o.1 :: o.2))) : objs.Pairwise fun a b => a.1.hdr.id ≠ b.1.hdr.id := by
  induction objs with
  | nil => exact .nil
  | cons o objs ih =>
    unfold SegmentsDiffer at hf
    rw [List.flatMap_cons, List.pairwise_append] at hf
    obtain ⟨-, f2, f3⟩ := hf
    refine List.pairwise_cons.2 ⟨?_, ih (fun o ho => h o (by simp [ho])) f2⟩
    intro o' ho' e
    have i1 := hdrs_item _ (h o (by simp)) o.1 (by simp)
    have i2 := hdrs_item _ (h o' (by simp [ho'])) o'.1 (by simp)
    exact f3 o.1 (by simp) o'.1 (List.mem_flatMap.2 ⟨o', ho', by simp⟩) i1.2 i2.2 (by rw [i1.1, i2.1, e])

theorem raw_sublist {n : Nat} {a b : List Reindex.Seg} (hs : a.Sublist b) (h : Raw n b) : Raw n a :=
  ⟨h.uniq.sublist hs, fun s m => h.used s (hs.subset m), fun s m => h.pos s (hs.subset m), fun s m t k => h.last s (hs.subset m) t (hs.subset k),
    fun s m => h.two s (hs.subset m)⟩

theorem due_subset {n : Nat} {S F : List Reindex.Seg} (h : ∀ s ∈ S, s ∈ F) {s : Reindex.Seg} {c : Call} (hc : c ∈ due n S s) : c ∈ due n F s := by
  unfold due at hc ⊢
  rcases List.mem_append.1 hc with hc | hc
  · exact List.mem_append_left _ hc
  · obtain ⟨t, ht, rfl⟩ := List.mem_map.1 hc
    obtain ⟨t1, t2⟩ := List.mem_filter.1 ht
    exact List.mem_append_right _ (List.mem_map.2 ⟨t, List.mem_filter.2 ⟨h t t1, t2⟩, rfl⟩)

/-- Meeting some of the segments of complete objects: the calls are among those for all segments. -/
theorem meet_some {n : Nat} {objs : List (Bytes × List Reindex.Seg)} {S F : List Reindex.Seg} (h1 : ∀ o ∈ objs, SegObject n o.1 o.2)
    (h2 : objs.Pairwise fun a b => a.1 ≠ b.1) (hF : F.Perm (objs.map (·.2)).flatten) {S' : List Reindex.Seg} (hS : S.Perm S') (hS' : S'.Sublist F) :
    ∃ C L, meet n S [] = .ok (C, L) ∧ (∀ c ∈ C, c ∈ (objs.map fun o => links o.2).flatten) ∧ C.length ≤ S.length ∧ L.length ≤ S.length ∧
      ∀ x ∈ L, ∃ s ∈ S, x.id = s.id ∧ x.flg = s.flg ∧ x.silo = s.silo ∧ x.off = s.off := by
  have hmix : Mixed n objs [] := ⟨h1, h2, fun _ _ s hs => (by cases hs), List.Pairwise.nil, fun s hs => (by cases hs), fun s hs => (by cases hs),
    fun s hs => (by cases hs), fun s hs => (by cases hs)⟩
  have hrF : Raw n F := raw_perm hF.symm (by simpa using mixed_raw objs hmix)
  have hrS : Raw n S.reverse := raw_perm (hS.symm.trans (List.reverse_perm S).symm) (raw_sublist hS' hrF)
  obtain ⟨C, L, m1, m2⟩ := meet_inv S.reverse hrS
  rw [List.reverse_reverse] at m1
  obtain ⟨CF, f1, f2⟩ := C39_complete (order := F) h1 h2 hF
  obtain ⟨CG, LG, g1, g2⟩ := meet_inv F.reverse (raw_perm (List.reverse_perm F).symm hrF)
  rw [List.reverse_reverse, f1] at g1
  cases g1
  have hin : ∀ s ∈ S.reverse, s ∈ F.reverse := by
    intro s hs
    rw [List.mem_reverse] at hs ⊢
    exact hS'.subset (hS.mem_iff.1 hs)
  refine ⟨C, L, m1, ?_, ?_, ?_, ?_⟩
  · intro c hc
    obtain ⟨s, hs, hd⟩ := List.mem_flatMap.1 (m2.calls.mem_iff.1 hc)
    refine f2.mem_iff.1 (g2.calls.mem_iff.2 (List.mem_flatMap.2 ⟨s, hin s hs, due_subset hin hd⟩))
  · have := dues_length hrS S.reverse (fun s hs => hs)
    rw [← m2.calls.length_eq, List.length_reverse] at this
    exact this
  · have hnd : L.Nodup := m2.sorted.imp fun h e => by
      subst e
      have := _root_.Verif.Reindex.lt_same h rfl
      omega
    have := (hnd.subperm (l₂ := S.reverse.map (mark n S.reverse)) (fun x hx => by
      obtain ⟨s, hs, rfl, -⟩ := (m2.mem x).1 hx
      exact List.mem_map_of_mem hs)).length_le
    rwa [List.length_map, List.length_reverse] at this
  · intro x hx
    obtain ⟨s, hs, rfl, -⟩ := (m2.mem x).1 hx
    exact ⟨s, by simpa using hs, rfl, rfl, rfl, rfl⟩

/-! ### Matching what is left over -/

theorem rematchOne_left {key cont : Bytes} {segs : List Reindex.Seg} : ∀ s ∈ (rematchOne key cont segs).2, s ∈ segs ∧ strncmpEq key s.id 16 = false := by
  induction segs with
  | nil => intro s hs; cases hs
  | cons t segs ih =>
    intro s hs
    unfold rematchOne at hs
    simp only at hs
    split at hs
    · exact ⟨List.mem_cons_of_mem _ (ih s hs).1, (ih s hs).2⟩
    · rename_i hn
      rcases List.mem_cons.1 hs with rfl | hs
      · exact ⟨by simp, by simpa using hn⟩
      · exact ⟨List.mem_cons_of_mem _ (ih s hs).1, (ih s hs).2⟩

theorem rematchOne_made {key cont : Bytes} {segs : List Reindex.Seg} : ∀ c ∈ (rematchOne key cont segs).1, ∃ s ∈ segs, strncmpEq key s.id 16 = true ∧
    c = ⟨s.id, s.flg, s.silo, s.off, some cont⟩ := by
  induction segs with
  | nil => intro s hs; cases hs
  | cons t segs ih =>
    intro c hc
    unfold rematchOne at hc
    simp only at hc
    split at hc
    · rename_i hy
      rcases List.mem_cons.1 hc with rfl | hc
      · exact ⟨t, by simp, hy, rfl⟩
      · obtain ⟨s, hs, h⟩ := ih c hc
        exact ⟨s, by simp [hs], h⟩
    · obtain ⟨s, hs, h⟩ := ih c hc
      exact ⟨s, by simp [hs], h⟩

theorem rematch_made (es : List Entry) : ∀ {segs : List Reindex.Seg}, ∀ c ∈ (rematch es segs).1, ∃ s ∈ segs, ∃ e ∈ es, e.flags &&& Reindex.F_SEGMENTED ≠ 0 ∧
    strncmpEq e.key s.id 16 = true ∧ c = ⟨s.id, s.flg, s.silo, s.off, some e.cont⟩ := by
  induction es with
  | nil => intro segs c hc; cases hc
  | cons e es ih =>
    intro segs c hc
    unfold rematch at hc
    split at hc
    · obtain ⟨s, hs, e', he, h⟩ := ih c hc
      exact ⟨s, hs, e', by simp [he], h⟩
    · rename_i hf
      simp only at hc
      rcases List.mem_append.1 hc with hc | hc
      · obtain ⟨s, hs, h1, h2⟩ := rematchOne_made c hc
        exact ⟨s, hs, e, by simp, hf, h1, h2⟩
      · obtain ⟨s, hs, e', he, h⟩ := ih c hc
        exact ⟨s, (rematchOne_left s hs).1, e', by simp [he], h⟩

theorem rematch_left (es : List Entry) : ∀ {segs : List Reindex.Seg}, ∀ s ∈ (rematch es segs).2, s ∈ segs ∧ ∀ e ∈ es, e.flags &&& Reindex.F_SEGMENTED ≠ 0 →
    strncmpEq e.key s.id 16 = false := by
  induction es with
  | nil => intro segs s hs; exact ⟨hs, fun e he => by cases he⟩
  | cons e es ih =>
    intro segs s hs
    unfold rematch at hs
    split at hs
    · rename_i hf
      obtain ⟨h1, h2⟩ := ih s hs
      refine ⟨h1, fun e' he' hf' => ?_⟩
      rcases List.mem_cons.1 he' with rfl | he'
      · exact absurd hf hf'
      · exact h2 e' he' hf'
    · simp only at hs
      obtain ⟨h1, h2⟩ := ih s hs
      obtain ⟨k1, k2⟩ := rematchOne_left s h1
      refine ⟨k1, fun e' he' hf' => ?_⟩
      rcases List.mem_cons.1 he' with rfl | he'
      · exact k2
      · exact h2 e' he' hf'

theorem segmented_bit (fl : Nat) : fl &&& Reindex.F_SEGMENTED ≠ 0 ↔ FlSegmented fl = true := by
  unfold FlSegmented flagBit
  have h : fl &&& 2 ^ 4 = (fl.testBit 4).toNat * 2 ^ 4 := by
    apply Nat.eq_of_testBit_eq
    intro j
    rw [Nat.testBit_and, Nat.testBit_two_pow]
    by_cases e : 4 = j
    · subst e
      cases hb : fl.testBit 4
      · simp
      · decide
    · cases hb : fl.testBit 4
      · simp [e]
      · rw [show (Bool.toNat true) * 2 ^ 4 = 2 ^ 4 from rfl, Nat.testBit_two_pow]
        simp [e]
  rw [show Reindex.F_SEGMENTED = 2 ^ 4 from rfl, h, Nat.testBit_eq_decide_div_mod_eq, beq_iff_eq]
  by_cases e : fl / 2 ^ 4 % 2 = 1 <;> simp [e]

theorem padKey_fix (n : Nat) (k : Bytes) : padKey n (padKey n k) = padKey n k := by
  have hl : (padKey n k).length = n := by unfold padKey; simp; omega
  have hlow : (padKey n k).map toLower = padKey n k := by
    unfold padKey
    simp only [List.map_append, List.map_take, List.map_map, List.map_replicate]
    congr 2
    exact List.map_congr_left fun c _ => toLower_idem c
  rw [padKey]
  simp only [hlow]
  rw [List.take_of_length_le (by omega), hl]
  simp

/-- Choose items for entries. -/
theorem items_of {A : List Item} (l : List Entry) (h : ∀ e ∈ l, e ∈ A.map (·.entry)) : ∃ A' : List Item, (∀ x ∈ A', x ∈ A) ∧ A'.map (·.entry) = l := by
  induction l with
  | nil => exact ⟨[], fun x hx => (by cases hx), rfl⟩
  | cons e l ih =>
    obtain ⟨A', h1, h2⟩ := ih fun e he => h e (by simp [he])
    obtain ⟨x, hx, rfl⟩ := List.mem_map.1 (h e (by simp))
    refine ⟨x :: A', ?_, by rw [List.map_cons, h2]⟩
    intro y hy
    rcases List.mem_cons.1 hy with rfl | hy
    · exact hx
    · exact h1 y hy

theorem filter_silos {α : Type} (g : α → Nat) (ns : List Nat) (hn : ns.Nodup) (A : List α) :
    (ns.flatMap fun n => A.filter fun x => g x = n).Perm (A.filter fun x => decide (g x ∈ ns)) := by
  have e : (ns.flatMap fun n => A.filter fun x => decide (g x = n)) = ns.flatMap fun n => (A.filter fun x => decide (g x ∈ ns)).filter fun x => decide (g x = n) := by
    rw [List.flatMap_def, List.flatMap_def]
    congr 1
    refine List.map_congr_left fun m hm => ?_
    rw [List.filter_filter]
    refine List.filter_congr fun x _ => ?_
    by_cases e : g x = m
    · simp [e, hm]
    · simp [e]
  rw [e]
  exact by_silo g ns _ hn fun x hx => of_decide_eq_true (List.mem_filter.1 hx).2

theorem reindexMain_eq (ps : Nat) (pfx : Bytes) (idSize sort fuel : Nat) (silos : Nat → Option Silo) (ns : List Nat) (d : Dir) :
    reindexMain ps pfx idSize sort fuel silos ns d = (reindexSilos ps pfx idSize sort fuel silos ns d [] >>= leftOver) := rfl

/-- Reindexing some of the silos, into the index that is there. -/
theorem reindex_some {env : Env} (he : EnvOk env) {g : Bool} {w : World} {ops : List IdxOp} {A P : List Item} {objs : List (Item × List Item)} {I : List Item}
    (ha : ArchInv env w ops A) (hl : Layout w.silos A) (hp : Parts env g A P objs I) (hf : SegmentsDiffer A) (hlow : SegmentsLower A) (hfew : A.length < 2 ^ 29)
    {ns : List Nat} (hnd : ns.Nodup) (hns : ∀ n ∈ ns, w.silos n ≠ none) {sort fuel : Nat} (hsort : sort % 32 = 0 ∧ 0 < sort)
    (hfuel : ∀ n f, w.silos n = some f → f.data.length < fuel) :
    ∃ (d : Dir) (ops' : List IdxOp) (A' : List Item), reindexMain env.ps env.pfx env.idSize sort fuel w.silos ns w.dir = .ok (d, []) ∧ (∀ x ∈ A', x ∈ A) ∧
      runOps {} (ops ++ ops') = .ok d ∧ (∀ o ∈ ops', o.Valid) ∧ (inserts ops').map Ins.entry = A'.map (·.entry) ∧ A'.length < 2 ^ 30 + 2 ^ 29 := by
  -- the records in the order of reading
  obtain ⟨Y, hY⟩ := Classical.axiomOfChoice (r := fun n (X : List Item) => n ∈ ns → ∃ f, w.silos n = some f ∧ X.Perm (A.filter fun x => x.entry.silo = n) ∧
      f.data = siloBytes (X.map (·.record)) ∧ X.map (·.entry.off) = offsets 0 (X.map (·.record))) (fun n => by
    by_cases hn : n ∈ ns
    · have := hns n hn
      cases h : w.silos n with
      | none => exact absurd h this
      | some f =>
        obtain ⟨X, x1, x2, x3⟩ := hl n f h
        exact ⟨X, fun _ => ⟨f, rfl, x1, x2, x3⟩⟩
    · exact ⟨[], fun h => absurd h hn⟩)
  obtain ⟨B, hB⟩ : ∃ B, A.filter (fun x => decide (x.entry.silo ∈ ns)) = B := ⟨_, rfl⟩
  have hperm : (ns.flatMap Y).Perm B := by
    rw [← hB]
    refine List.Perm.trans (_root_.Verif.Reindex.flatMap_perm (g := fun n => A.filter fun x => x.entry.silo = n) _ fun n hn => ?_) (filter_silos (·.entry.silo) ns hnd A)
    obtain ⟨f, -, x1, -⟩ := hY n hn
    exact x1
  have hsub : B.Sublist A := by rw [← hB]; exact List.filter_sublist
  have hBl := hsub.length_le
  have hmemA : ∀ x ∈ ns.flatMap Y, x ∈ A := fun x hx => hsub.subset (hperm.mem_iff.1 hx)
  obtain ⟨p1, p2, p3, p4⟩ := singles P fun x hx => kind_plain (hp.plain x hx).1 (hp.plain x hx).2.1
  obtain ⟨i1, i2, i3, i4⟩ := singles I fun x hx => kind_info he (hp.info x hx)
  have hlen := hp.perm.length_eq
  simp only [List.length_append] at hlen
  have hobj : ∀ o ∈ objs, (o.1 :: o.2).length ≤ (objs.flatMap (fun o => o.1 :: o.2)).length := by
    intro o ho
    exact List.Sublist.length_le (List.sublist_flatten_of_mem (List.mem_map.2 ⟨o, ho, rfl⟩))
  obtain ⟨o1, o2, o3, o4⟩ := several he objs fun o ho => by
    have := hobj o ho
    exact ⟨(hp.several o ho).2.1, (hp.several o ho).2.2.1, by omega⟩
  have sa : ∀ a b, segsL (a ++ b) = segsL a ++ segsL b := fun a b => List.filterMap_append
  have ca : ∀ a b, callsL (a ++ b) = callsL a ++ callsL b := fun a b => List.filterMap_append
  have hsegs : (segsL A).Perm (objs.map fun o => segsOf o.1.hdr.id 1 (o.1 :: o.2)).flatten := by
    have : (segsL A).Perm (segsL (P ++ (objs.flatMap (fun o => o.1 :: o.2) ++ I))) := hp.perm.filterMap _
    rw [sa, sa, p1, i1, o1, List.nil_append, List.append_nil] at this
    exact this
  have hcallsA : (callsL A).Perm (callsL P ++ callsL I) := by
    have : (callsL A).Perm (callsL (P ++ (objs.flatMap (fun o => o.1 :: o.2) ++ I))) := hp.perm.filterMap _
    rw [ca, ca, o2, List.nil_append] at this
    exact this
  have hkind : ∀ x ∈ A, kindOf x ≠ none := by
    intro x hx
    rcases List.mem_append.1 (hp.perm.mem_iff.1 hx) with hx | hx
    · exact p4 x hx
    · rcases List.mem_append.1 hx with hx | hx
      · exact o4 x hx
      · exact i4 x hx
  obtain ⟨C1, L, m1, m2, m3, m4, m5⟩ := meet_some (n := env.idSize) (objs := objs.map fun o => (o.1.hdr.id, segsOf o.1.hdr.id 1 (o.1 :: o.2)))
    (S := segsL (ns.flatMap Y)) (F := segsL A) (S' := segsL B) (by
      intro z hz
      obtain ⟨o, ho, rfl⟩ := List.mem_map.1 hz
      obtain ⟨s1, s2, s3, s4, -⟩ := hp.several o ho
      refine ⟨segsOf_chain s4 o.2 (fun _ => rfl) (by omega), ?_⟩
      rw [segsOf_length, List.length_cons]
      have : 0 < o.2.length := List.length_pos_iff.2 s1
      omega) (by
      rw [List.pairwise_map]
      refine segments_objs objs (fun o ho => (hp.several o ho).2.1) ?_
      have := segmentsDiffer_perm hp.perm hf
      unfold SegmentsDiffer at this ⊢
      rw [List.pairwise_append, List.pairwise_append] at this
      exact this.2.1.1) (by simpa only [List.map_map, Function.comp_def] using hsegs) (hperm.filterMap _) (hsub.filterMap _)
  simp only [List.map_map, Function.comp_def] at m2
  obtain ⟨C, c1, c2⟩ := proc_meet (k := env.idSize) (ns.flatMap Y) (fun x hx => hkind x (hmemA x hx)) m1
  -- the calls are for records of the archive
  have hcall : ∀ c ∈ C, (toIns c).entry ∈ A.map (·.entry) ∧ (∀ a ∈ c.id, isHex a = true) ∧ ∀ k, c.cont = some k → ∀ a ∈ k, isHex a = true := by
    intro c hc
    rcases List.mem_append.1 (c2.mem_iff.1 hc) with h | h
    · have h' : c ∈ callsL A := by
        obtain ⟨x, hx, e⟩ := List.mem_filterMap.1 h
        exact List.mem_filterMap.2 ⟨x, hmemA x hx, e⟩
      have hpi := List.mem_append.1 (hcallsA.mem_iff.1 h')
      refine ⟨?_, ?_⟩
      · have hin : ∀ x, x ∈ P ∨ x ∈ I → x.entry ∈ A.map (·.entry) := by
          intro x hx
          refine List.mem_map_of_mem (hp.perm.mem_iff.2 ?_)
          simp only [List.mem_append]
          exact hx.elim .inl fun h => .inr (.inr h)
        rcases hpi with h | h
        · have : (toIns c).entry ∈ P.map (·.entry) := by rw [← p2]; exact List.mem_map.2 ⟨c, h, rfl⟩
          obtain ⟨x, hx, e⟩ := List.mem_map.1 this
          rw [← e]
          exact hin x (.inl hx)
        · have : (toIns c).entry ∈ I.map (·.entry) := by rw [← i2]; exact List.mem_map.2 ⟨c, h, rfl⟩
          obtain ⟨x, hx, e⟩ := List.mem_map.1 this
          rw [← e]
          exact hin x (.inr hx)
      · have := hpi.elim (p3 c) (i3 c)
        exact ⟨this.1, fun k hk => by rw [this.2] at hk; cases hk⟩
    · have hm := m2 c h
      refine ⟨?_, ?_⟩
      · have : (toIns c).entry ∈ (objs.flatMap (fun o => o.1 :: o.2)).map (·.entry) := by rw [← o3]; exact List.mem_map.2 ⟨c, hm, rfl⟩
        obtain ⟨x, hx, e⟩ := List.mem_map.1 this
        rw [← e]
        refine List.mem_map_of_mem (hp.perm.mem_iff.2 ?_)
        simp only [List.mem_append]
        exact .inr (.inl hx)
      · obtain ⟨l, hl, h⟩ := List.mem_flatten.1 hm
        obtain ⟨o, ho, rfl⟩ := List.mem_map.1 hl
        exact links_hex o.2 (hp.several o ho).2.1 c h
  have hval : ∀ c : Call, (toIns c).entry ∈ A.map (·.entry) → (∀ a ∈ c.id, isHex a = true) → (∀ k, c.cont = some k → ∀ a ∈ k, isHex a = true) → (toIns c).Valid := by
    intro c h1 h2 h3
    rw [← ha.entries] at h1
    obtain ⟨i, hi, hie⟩ := List.mem_map.1 h1
    obtain ⟨-, v2, v3, v4, -⟩ := inserts_valid ops ha.valid i hi
    have q1 := congrArg Entry.flags hie
    have q2 := congrArg Entry.silo hie
    have q3 := congrArg Entry.off hie
    simp only [Ins.entry] at q1 q2 q3
    exact ⟨h2, by rw [← q1]; exact v2, by rw [← q2]; exact v3, by rw [← q3]; exact v4, h3⟩
  obtain ⟨ops', e1, e2, e3⟩ := reindexSilos_ops hsort (ps := env.ps) (pfx := env.pfx) (fuel := fuel) (silos := w.silos) ns (by
    intro n hn
    obtain ⟨f, f1, f2, f3, f4⟩ := hY n hn
    refine ⟨f, f1, f3, f4, hfuel n f f1, ?_⟩
    intro x hx
    obtain ⟨x1, x2⟩ := List.mem_filter.1 (f2.mem_iff.1 hx)
    exact ⟨of_decide_eq_true x2, (ha.there x x1).2⟩) c1
  have hops : ∀ o ∈ ops', o.Valid := by
    intro o ho
    rcases e2 o ho with ⟨c, hc, rfl⟩ | rfl
    · exact hval c (hcall c hc).1 (hcall c hc).2.1 (hcall c hc).2.2
    · exact hsort
  -- how many they are
  have hn0 : (inserts ops).length = A.length := by
    have := congrArg List.length ha.entries
    simpa using this
  have hlY : (ns.flatMap Y).length ≤ A.length := by rw [hperm.length_eq]; exact hBl
  have hlS : (segsL (ns.flatMap Y)).length ≤ A.length := Nat.le_trans (List.length_filterMap_le _ _) hlY
  have hlC : C.length ≤ A.length + A.length := by
    rw [c2.length_eq, List.length_append]
    have : (callsL (ns.flatMap Y)).length ≤ A.length := Nat.le_trans (List.length_filterMap_le _ _) hlY
    omega
  have hv1 : ∀ o ∈ ops ++ ops', o.Valid := fun o ho => (List.mem_append.1 ho).elim (ha.valid o) (hops o)
  have hn1 : (inserts (ops ++ ops')).length = A.length + C.length := by
    rw [inserts_append, List.length_append, hn0, e1, List.length_map]
  obtain ⟨d1, es, r, r1, r2, r3, -⟩ := C04_listing_complete (ops ++ ops') hv1 (by omega)
  have r1' := r1
  rw [runOps_append, ha.dir, Res.ok_bind] at r1'
  have hrs := e3 _ _ r1'
  have hent : ∀ e, e ∈ es ↔ e ∈ A.map (·.entry) := by
    intro e
    rw [r3, inserts_append]
    constructor
    · rintro ⟨i, hi, rfl⟩
      rcases List.mem_append.1 hi with hi | hi
      · rw [← ha.entries]
        exact List.mem_map_of_mem hi
      · rw [e1] at hi
        obtain ⟨c, hc, rfl⟩ := List.mem_map.1 hi
        exact (hcall c hc).1
    · intro h
      rw [← ha.entries] at h
      obtain ⟨i, hi, rfl⟩ := List.mem_map.1 h
      exact ⟨i, List.mem_append_left _ hi, rfl⟩
  -- the segments that are left over
  have hL : ∀ s ∈ L, ∃ x ∈ A, FlSegmented x.entry.flags = true ∧ x.entry.key = padKey 24 x.hdr.id ∧ x.entry.key.take 16 = s.id.take 16 ∧ (∀ a ∈ s.id, isHex a = true) ∧
      s.id = x.hdr.id ∧ s.flg = x.entry.flags ∧ s.silo = x.entry.silo ∧ s.off = x.entry.off := by
    intro s hs
    obtain ⟨t, ht, q1, q2, q3, q4⟩ := m5 s hs
    have ht : t ∈ segsL A := by
      obtain ⟨x, hx, e⟩ := List.mem_filterMap.1 ht
      exact List.mem_filterMap.2 ⟨x, hmemA x hx, e⟩
    obtain ⟨l, hl, ht⟩ := List.mem_flatten.1 (hsegs.mem_iff.1 ht)
    obtain ⟨o, ho, rfl⟩ := List.mem_map.1 hl
    obtain ⟨x, hx, x1, x2, x3, x4⟩ := segsOf_mem _ t ht
    have hxA : x ∈ A := by
      refine hp.perm.mem_iff.2 ?_
      simp only [List.mem_append]
      exact .inr (.inl (List.mem_flatMap.2 ⟨o, ho, hx⟩))
    obtain ⟨k1, k2⟩ := hdrs_item _ (hp.several o ho).2.1 x hx
    have hid : x.hdr.id = s.id := (q1.trans x1).symm
    refine ⟨x, hxA, k2, k1, ?_, ?_, hid.symm, q2.trans x2, q3.trans x3, q4.trans x4⟩
    · rw [← hid]
      exact (hlow x hxA k2).symm
    · rw [← hid]
      exact hdrs_hex _ (hp.several o ho).2.1 x hx
  have hmade : ∀ c ∈ (rematch es L).1, (toIns c).entry ∈ A.map (·.entry) ∧ (toIns c).Valid := by
    intro c hc
    obtain ⟨s, hs, e, hee, hfl, hk, rfl⟩ := rematch_made es c hc
    obtain ⟨x, hx, x1, x2, x3, x4, x5, x6, x7, x8⟩ := hL s hs
    obtain ⟨y, hy, rfl⟩ := List.mem_map.1 ((hent e).1 hee)
    have hxy : y = x := segmentsDiffer_eq hf y hy x hx ((segmented_bit _).1 hfl) x1 (by
      rw [x3]
      simpa [strncmpEq] using hk)
    subst hxy
    have hcont := arch_cont ha hy
    have hpad : padKey 8 y.entry.cont = y.entry.cont := by
      have : y.entry ∈ (inserts ops).map Ins.entry := by rw [ha.entries]; exact List.mem_map_of_mem hy
      obtain ⟨i, -, hi⟩ := List.mem_map.1 this
      rw [← hi]
      exact padKey_fix _ _
    have hen : (toIns ⟨s.id, s.flg, s.silo, s.off, some y.entry.cont⟩).entry = y.entry := by
      simp only [toIns, Ins.entry, Option.getD_some, hpad, x5, x6, x7, x8, ← x2]
    have hin : (toIns ⟨s.id, s.flg, s.silo, s.off, some y.entry.cont⟩).entry ∈ A.map (·.entry) := by rw [hen]; exact List.mem_map_of_mem hy
    exact ⟨hin, hval _ hin x4 (fun k hk => by cases hk; exact hcont.1)⟩
  have hnone : (rematch es L).2 = [] := by
    refine List.eq_nil_iff_forall_not_mem.2 fun s hs => ?_
    obtain ⟨h1, h2⟩ := rematch_left es s hs
    obtain ⟨x, hx, x1, -, x3, -⟩ := hL s h1
    have := h2 x.entry ((hent _).2 (List.mem_map_of_mem hx)) ((segmented_bit _).2 x1)
    rw [strncmpEq, x3] at this
    simp at this
  have hlR : (rematch es L).1.length ≤ A.length := by
    have := (rematch_calls es L).2.2
    omega
  -- all together
  have hCent : ∀ e ∈ (C ++ (rematch es L).1).map (fun c => (toIns c).entry), e ∈ A.map (·.entry) := by
    intro e hee
    obtain ⟨c, hc, rfl⟩ := List.mem_map.1 hee
    exact (List.mem_append.1 hc).elim (fun h => (hcall c h).1) fun h => (hmade c h).1
  obtain ⟨A', a1, a2⟩ := items_of _ hCent
  have hA' : A'.length = C.length + (rematch es L).1.length := by
    have := congrArg List.length a2
    simpa using this
  by_cases hLn : L = []
  · have hre : (rematch es L).1 = [] := by
      rw [hLn] at *
      exact List.eq_nil_of_length_eq_zero (by have := (rematch_calls es []).2.2; simp at this; exact List.length_eq_zero_iff.2 this.1)
    refine ⟨d1, ops', A', ?_, a1, r1, hops, ?_, by omega⟩
    · rw [reindexMain_eq, hrs, hLn]
      rfl
    · rw [a2, hre, List.append_nil, e1, List.map_map]
      rfl
  · obtain ⟨d, -, -, s1, -⟩ := C04_listing_complete (ops ++ ops' ++ (rematch es L).1.map fun c => .insert (toIns c)) (by
      intro o ho
      rcases List.mem_append.1 ho with ho | ho
      · exact hv1 o ho
      · obtain ⟨c, hc, rfl⟩ := List.mem_map.1 ho
        exact (hmade c hc).2) (by
      rw [inserts_append, inserts_calls, List.length_append, List.length_map, hn1]
      omega)
    have hd : runOps d1 ((rematch es L).1.map fun c => .insert (toIns c)) = .ok d := by
      rw [runOps_append, r1] at s1
      exact s1
    refine ⟨d, ops' ++ (rematch es L).1.map (fun c => .insert (toIns c)), A', ?_, a1, by rw [← List.append_assoc]; exact s1, ?_, ?_, by omega⟩
    · rw [reindexMain_eq, hrs]
      have hli : idxIter d1 none (fun l e => (l ++ [e], (0 : Int))) [] = .ok (es, r) := r2
      simp only [Res.ok_bind, leftOver, if_neg hLn, hli, insertCalls_runOps, hd, Res.pure_eq, hnone]
    · intro o ho
      rcases List.mem_append.1 ho with ho | ho
      · exact hops o ho
      · obtain ⟨c, hc, rfl⟩ := List.mem_map.1 ho
        exact (hmade c hc).2
    · rw [a2, inserts_append, inserts_calls, List.map_append, e1, List.map_map, List.map_append, List.map_map]
      rfl

/-! ### The name of a silo -/

theorem numpart_slash {fuel lvl num : Nat} (h : num < fuel) : ∃ p, _root_.Verif.Silo.numpart fuel lvl num = p ++ [47] := by
  have last : ∀ (a b : Bytes), ∃ p, a ++ (b ++ b!"/") = p ++ [47] := fun a b => ⟨a ++ b, by rw [List.append_assoc]⟩
  induction fuel generalizing lvl num with
  | zero => omega
  | succ fuel ih =>
    rw [_root_.Verif.Silo.numpart]
    by_cases hl : lvl > 0
    · rw [if_pos hl]
      exact last _ _
    · rw [if_neg hl, List.append_nil]
      by_cases hn : num ≥ 100
      · rw [if_pos hn]
        exact ih (by omega)
      · rw [if_neg hn]
        exact last [] _

theorem ulDigits_stop (l post : Bytes) (hp : ∀ c, post.head? = some c → isDigit c = false) : ∀ v, (∀ c ∈ l, isDigit c = true) →
    Audit.ulDigits 10 (l ++ post) v = (l.foldl (fun n c => n * 10 + (c.toNat - 48)) v, post) := by
  induction l with
  | nil =>
    intro v _
    cases post with
    | nil => rfl
    | cons c cs =>
      have hc : isDigit c = false := hp c rfl
      rw [List.nil_append, Audit.ulDigits]
      have hn : ¬ (48 ≤ c ∧ c ≤ 57) := by
        intro h
        simp [isDigit, h.1, h.2] at hc
      have hbig : ∀ d, Audit.digitVal c = some d → ¬ d < 10 := by
        intro d hd
        unfold Audit.digitVal at hd
        rw [if_neg hn] at hd
        split at hd
        · rename_i h
          have h1 : (97 : UInt8).toNat ≤ c.toNat := UInt8.le_iff_toNat_le.1 h.1
          have : (97 : UInt8).toNat = 97 := rfl
          cases hd
          omega
        · split at hd
          · rename_i h
            have h1 : (65 : UInt8).toNat ≤ c.toNat := UInt8.le_iff_toNat_le.1 h.1
            have : (65 : UInt8).toNat = 65 := rfl
            cases hd
            omega
          · cases hd
      cases hd : Audit.digitVal c with
      | none => rfl
      | some d =>
        simp only
        rw [if_neg (hbig d hd)]
        rfl
  | cons c l ih =>
    intro v h
    have hc := h c (by simp)
    simp only [isDigit, Bool.and_eq_true, decide_eq_true_eq] at hc
    have hd : Audit.digitVal c = some (c.toNat - 48) := by
      unfold Audit.digitVal
      rw [if_pos hc]
    have h9 : c.toNat ≤ 57 := UInt8.le_iff_toNat_le.1 hc.2
    rw [List.cons_append, Audit.ulDigits, hd]
    simp only
    rw [if_pos (by omega), ih _ fun d hd => h d (by simp [hd])]
    rfl

theorem digit_noSpace {c : UInt8} (h : isDigit c = true) : isSpace c = false := by
  simp only [isDigit, Bool.and_eq_true, decide_eq_true_eq] at h
  have h1 : (48 : UInt8).toNat ≤ c.toNat := UInt8.le_iff_toNat_le.1 h.1
  have k : (48 : UInt8).toNat = 48 := rfl
  cases hs : isSpace c with
  | false => rfl
  | true =>
    simp only [isSpace, Bool.or_eq_true, beq_iff_eq, Bool.and_eq_true, decide_eq_true_eq] at hs
    rcases hs with hs | hs
    · rw [hs] at h1
      exact absurd h1 (by decide)
    · have h2 : c.toNat ≤ (13 : UInt8).toNat := UInt8.le_iff_toNat_le.1 hs.2
      have : (13 : UInt8).toNat = 13 := rfl
      omega

theorem strtoul10_zpad {k n : Nat} {post : Bytes} (hp : ∀ c, post.head? = some c → isDigit c = false) (hn : n < 2 ^ 64) :
    _root_.Verif.Reindex.strtoul10 (_root_.Verif.Silo.zpad k n ++ post) = n := by
  have hdig := _root_.Verif.Silo.zpad_digits k n
  have hne : _root_.Verif.Silo.zpad k n ≠ [] := by
    intro h
    have := _root_.Verif.Silo.decVal_zpad k n
    rw [_root_.Verif.Silo.zpad, List.append_eq_nil_iff] at h
    have hd := Verif.dec_ne_nil n
    exact hd h.2
  have hval := ulDigits_stop (_root_.Verif.Silo.zpad k n) post hp 0 hdig
  have hv : (_root_.Verif.Silo.zpad k n).foldl (fun n c => n * 10 + (c.toNat - 48)) 0 = n := _root_.Verif.Silo.decVal_zpad k n
  rw [hv] at hval
  obtain ⟨c, l, hcl⟩ := List.exists_cons_of_ne_nil hne
  have hc : isDigit c = true := hdig c (by rw [hcl]; simp)
  have h1 : Audit.skipWs (_root_.Verif.Silo.zpad k n ++ post) = _root_.Verif.Silo.zpad k n ++ post := by
    rw [hcl, List.cons_append, Audit.skipWs, if_neg]
    rw [digit_noSpace hc]
    simp
  have h2 : Audit.sign (_root_.Verif.Silo.zpad k n ++ post) = (false, _root_.Verif.Silo.zpad k n ++ post) := by
    rw [hcl, List.cons_append]
    unfold Audit.sign
    split
    · rename_i h
      cases h
      exact absurd hc (by decide)
    · rename_i h
      cases h
      exact absurd hc (by decide)
    · rfl
  unfold _root_.Verif.Reindex.strtoul10
  rw [h1, h2]
  simp only [hval]
  rw [if_neg (by omega)]
  rfl

end Verif.Props
