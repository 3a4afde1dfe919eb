/-
Property C40: reindexing makes the index again.
-/
import Verif.Proofs.ReindexArch

namespace Verif.Props
open Verif Header Gzip Ident Index Wsilo Segjob Getjob Spec Inflate
open _root_.Verif.Reindex (Call reindexSilos)
open _root_.Verif.Commit (upd Silo)

/-- What may happen to an archive: resources and metadata are stored, the index is housekept, silos are made with `mksilo`, silos are write-protected, cache
numbers forgotten, old hold files removed.  Only metadata may be given an ID (main_store.c:165-176), and only if `g` says so. -/
inductive Stores {σ : Type} (env : Env) (D : Deflater σ) (g : Bool) : World → World → Prop where
  | refl (w : World) : Stores env D g w w
  | store {w w1 w2 : World} {fuel : Nat} {h : Hdr} {ident : Option Bytes} {cs : List Bytes} {uri : Bytes} :
      Stores env D g w w1 → GoodJob env h → headerGet h b!"WARC-Type" = some b!"resource" ∨ headerGet h b!"WARC-Type" = some b!"metadata" →
      GoodInput env cs → (ident ≠ none → g = true ∧ headerGet h b!"WARC-Type" = some b!"metadata") → storeObj env D fuel w1 h ident cs = .ok (w2, uri) → Stores env D g w w2
  | housekeep {w w1 : World} {n : Nat} {d : Dir} : Stores env D g w w1 → n % 32 = 0 → 0 < n → idxResort n w1.dir = .ok d →
      Stores env D g w { w1 with dir := d }
  | mksilo {w w1 w2 : World} {n : Nat} {out : Mksilo.Out} : Stores env D g w w1 → n < 2 ^ 32 → Mksilo.mksilo env w1 n = .ok (w2, out) → Stores env D g w w2
  | other {w w1 w2 : World} : Stores env D g w w1 → w2.dir = w1.dir → (∀ n, (w2.silos n).map (·.data) = (w1.silos n).map (·.data)) →
      Stores env D g w w2

/-- The records of an object tell the truth about it, and have the ID made from the contents or given by the user. -/
def Honest (env : Env) (g : Bool) (x : Item) (ys : List Item) : Prop :=
  ∃ jh ident, (headerGet jh b!"WARC-Type" = some b!"resource" ∨ headerGet jh b!"WARC-Type" = some b!"metadata") ∧ Truthful env jh x ys ∧
    ObjectId env jh ident ((x :: ys).map (·.record.data)).flatten x.hdr.id ∧ (ident ≠ none → g = true ∧ headerGet jh b!"WARC-Type" = some b!"metadata")

/-- The archive consists of objects in one record, objects in several records, and warcinfo records. -/
structure Parts (env : Env) (g : Bool) (A P : List Item) (objs : List (Item × List Item)) (I : List Item) : Prop where
  perm : A.Perm (P ++ (objs.flatMap (fun o => o.1 :: o.2) ++ I))
  plain : ∀ x ∈ P, PlainHdr x ∧ Typed x.hdr ∧ Honest env g x []
  several : ∀ o ∈ objs, o.2 ≠ [] ∧ SegHdrs env.pfx o.1.hdr.id 1 (o.1 :: o.2) ∧ Typed o.1.hdr ∧ o.1.hdr.id.length = env.idSize ∧ Honest env g o.1 o.2
  info : ∀ y ∈ I, InfoItem env y

theorem perm_second {α : Type} {A X a b c d e : List α} (h1 : A.Perm (a ++ (b ++ c))) (h2 : X.Perm (d ++ e)) :
    (A ++ X).Perm (a ++ ((d ++ b) ++ (c ++ e))) := by
  refine (List.Perm.append h1 h2).trans ?_
  rw [List.append_assoc, List.append_assoc, List.append_assoc]
  refine List.Perm.append_left a ((List.Perm.append_left b (List.perm_append_comm_assoc c d e)).trans ?_)
  exact List.perm_append_comm_assoc b d _

theorem perm_first {α : Type} {A X a b c d e : List α} (h1 : A.Perm (a ++ (b ++ c))) (h2 : X.Perm (d ++ e)) :
    (A ++ X).Perm ((d ++ a) ++ (b ++ (c ++ e))) := by
  refine (perm_second h1 h2).trans ?_
  rw [List.append_assoc, List.append_assoc]
  exact List.perm_append_comm_assoc a d _

theorem layout_data {s s' : Nat → Option Silo} {A : List Item} (h : ∀ n, (s' n).map (·.data) = (s n).map (·.data)) (hl : Layout s A) : Layout s' A := by
  intro n f hf
  have := h n
  rw [hf] at this
  cases hs : s n with
  | none => rw [hs] at this; cases this
  | some g =>
    rw [hs] at this
    simp only [Option.map_some, Option.some.injEq] at this
    rw [this]
    exact hl n g hs

theorem parts_info {env : Env} {g : Bool} {A P : List Item} {objs : List (Item × List Item)} {I : List Item} (h : Parts env g A P objs I) {y : Item}
    (hy : InfoItem env y) : Parts env g (A ++ [y]) P objs (I ++ [y]) := by
  refine ⟨?_, h.plain, h.several, ?_⟩
  · rw [← List.append_assoc, ← List.append_assoc]
    refine List.Perm.append_right _ ?_
    rw [List.append_assoc]
    exact h.perm
  · intro z hz
    rcases List.mem_append.1 hz with hz | hz
    · exact h.info z hz
    · rw [List.mem_singleton] at hz
      rw [hz]; exact hy

theorem stores_inv {σ : Type} {env : Env} {D : Deflater σ} (hz : Zlib D) (he : EnvOk env) {g : Bool} {w w' : World} (hl : Stores env D g w w') (hd : w.dir = {})
    (hs : ∀ n, w.silos n = none) : ∃ ops A P objs I, ArchInv env w' ops A ∧ Layout w'.silos A ∧ Parts env g A P objs I := by
  induction hl with
  | refl =>
    refine ⟨[], [], [], [], [], ⟨by rw [hd]; rfl, fun o ho => (by cases ho), rfl, fun x hx => (by cases hx), fun x hx => (by cases hx)⟩, ?_, .refl _, fun x hx => (by cases hx), fun x hx => (by cases hx), fun x hx => (by cases hx)⟩
    intro n f hf
    rw [hs] at hf
    cases hf
  | store _ hj ht hc hg e ih =>
    obtain ⟨ops, A, P, objs, I, h1, h2, h3⟩ := ih
    obtain ⟨id, -, u2, u3, ⟨-, s1, s2, -⟩ | ⟨-, is2, X2, x, ys, a1, -, a3, a4, -, -, b1, ⟨I2, b2, b3⟩, b4, b5, b7⟩⟩ := store_adds hz he hj hc h1 e
    · exact ⟨ops, A, P, objs, I, archInv_same h1 s2 s1, by rw [s1]; exact h2, h3⟩
    · have hty : Typed x.hdr := by
        unfold Typed
        rw [b4]
        rcases ht with ht | ht
        · exact ⟨_, ht, by decide⟩
        · exact ⟨_, ht, by decide⟩
      have hh : Honest env g x ys := ⟨_, _, ht, b7, by rw [a3.2.1, a4]; exact u3, hg⟩
      rcases b5 with ⟨rfl, b5⟩ | ⟨b5, b6⟩
      · refine ⟨_, _, x :: P, objs, I ++ I2, a1, lay_arch h1 b1 h2, ⟨?_, ?_, h3.several, ?_⟩⟩
        · exact perm_first h3.perm b2
        · intro z hz
          rcases List.mem_cons.1 hz with rfl | hz
          · exact ⟨b5, hty, hh⟩
          · exact h3.plain z hz
        · intro z hz
          rcases List.mem_append.1 hz with hz | hz
          · exact h3.info z hz
          · exact b3 z hz
      · refine ⟨_, _, P, (x, ys) :: objs, I ++ I2, a1, lay_arch h1 b1 h2, ⟨?_, h3.plain, ?_, ?_⟩⟩
        · exact perm_second h3.perm b2
        · intro z hz
          rcases List.mem_cons.1 hz with rfl | hz
          · exact ⟨b5, b6, hty, by rw [a4]; exact ((C11_valid_id _ _ _ _).1 u2).2.2, hh⟩
          · exact h3.several z hz
        · intro z hz
          rcases List.mem_append.1 hz with hz | hz
          · exact h3.info z hz
          · exact b3 z hz
  | housekeep _ hn hp e ih =>
    rename_i w1 n d _
    obtain ⟨ops, A, P, objs, I, h1, h2, h3⟩ := ih
    refine ⟨ops ++ [.housekeep n], A, P, objs, I, ⟨?_, ?_, ?_, h1.there, h1.text⟩, h2, h3⟩
    · rw [runOps_append, h1.dir]
      simp only [Res.ok_bind, runOps, e]
    · intro o ho
      rcases List.mem_append.1 ho with h | h
      · exact h1.valid o h
      · rw [List.mem_singleton] at h
        rw [h]; exact ⟨hn, hp⟩
    · rw [inserts_append]
      simpa [inserts] using h1.entries
  | mksilo _ hn e ih =>
    obtain ⟨ops, A, P, objs, I, h1, h2, h3⟩ := ih
    rcases mksilo_adds he h1 hn e with ⟨-, rfl, -⟩ | ⟨-, -, -, -, is2, y, a1, a2, -, -, -, -, a3⟩
    · exact ⟨ops, A, P, objs, I, h1, h2, h3⟩
    · exact ⟨_, _, P, objs, I ++ [y], a1, lay_arch h1 a3 h2, parts_info h3 a2⟩
  | other _ hd' hs' ih =>
    rename_i w1 w2 _
    obtain ⟨ops, A, P, objs, I, h1, h2, h3⟩ := ih
    have hg : Grown w1.silos w2.silos := by
      intro n f hf
      have := hs' n
      rw [hf] at this
      cases h : w2.silos n with
      | none => rw [h] at this; cases this
      | some g =>
        rw [h] at this
        simp only [Option.map_some, Option.some.injEq] at this
        exact ⟨g, [], rfl, by simp [this]⟩
    exact ⟨ops, A, P, objs, I, ⟨by rw [hd']; exact h1.dir, h1.valid, h1.entries, fun x hx => at_grown hg (h1.there x hx), h1.text⟩, layout_data hs' h2, h3⟩

/-! ### C40 -/

/-- No two segmented objects have the same ID. -/
def FirstsDiffer (A : List Item) : Prop :=
  A.Pairwise fun x y => FlFirst x.entry.flags = true → FlFirst y.entry.flags = true → x.hdr.id ≠ y.hdr.id

theorem firsts_perm {A B : List Item} (h : A.Perm B) (ha : FirstsDiffer A) : FirstsDiffer B :=
  (h.pairwise_iff fun h a b => (h b a).symm).1 ha

theorem first_flag {pfx fid : Bytes} {x : Item} {l : List Item} (h : SegHdrs pfx fid 1 (x :: l)) : FlFirst x.entry.flags = true := by
  obtain ⟨-, -, -, h4, -⟩ := h
  rw [h4]
  have := (flag_seg (typeFlag_cases x.hdr) true l.isEmpty).2.2.1
  simpa only [Ins.entry, if_true] using this

theorem firsts_objs {pfx : Bytes} (objs : List (Item × List Item)) (h : ∀ o ∈ objs, SegHdrs pfx o.1.hdr.id 1 (o.1 :: o.2))
    (hf : FirstsDiffer (objs.flatMap (fun o => o.1 :: o.2))) : objs.Pairwise fun a b => a.1.hdr.id ≠ b.1.hdr.id := by
  induction objs with
  | nil => exact .nil
  | cons o objs ih =>
    unfold FirstsDiffer at hf
    rw [List.flatMap_cons, List.pairwise_append] at hf
    obtain ⟨-, f2, f3⟩ := hf
    refine List.pairwise_cons.2 ⟨?_, ih (fun o ho => h o (by simp [ho])) f2⟩
    intro o' ho'
    exact f3 o.1 (by simp) o'.1 (List.mem_flatMap.2 ⟨o', ho', by simp⟩) (first_flag (h o (by simp))) (first_flag (h o' (by simp [ho'])))

theorem filterMap_flatMap {α β γ : Type} (f : α → List β) (g : β → Option γ) (l : List α) :
    (l.flatMap f).filterMap g = l.flatMap fun a => (f a).filterMap g := by
  induction l with
  | nil => rfl
  | cons a l ih => simp [List.flatMap_cons, List.filterMap_append, ih]

theorem by_silo {α : Type} (g : α → Nat) (ns : List Nat) : ∀ A : List α, ns.Nodup → (∀ x ∈ A, g x ∈ ns) →
    (ns.flatMap fun n => A.filter fun x => g x = n).Perm A := by
  induction ns with
  | nil =>
    intro A _ h
    cases A with
    | nil => exact .refl _
    | cons a A => exact absurd (h a (by simp)) (by simp)
  | cons n ns ih =>
    intro A hn h
    obtain ⟨h1, h2⟩ := List.nodup_cons.1 hn
    rw [List.flatMap_cons]
    have e : (ns.flatMap fun m => A.filter fun x => decide (g x = m)) = ns.flatMap fun m => (A.filter fun x => !decide (g x = n)).filter fun x => decide (g x = m) := by
      rw [List.flatMap_def, List.flatMap_def]
      congr 1
      refine List.map_congr_left fun m hm => ?_
      rw [List.filter_filter]
      refine List.filter_congr fun x _ => ?_
      by_cases e : g x = m
      · have : ¬ m = n := fun h => h1 (h ▸ hm)
        simp [e, this]
      · simp [e]
    rw [e]
    refine (List.Perm.append_left _ (ih _ h2 ?_)).trans (List.filter_append_perm _ A)
    intro x hx
    obtain ⟨x1, x2⟩ := List.mem_filter.1 hx
    rcases List.mem_cons.1 (h x x1) with h | h
    · simp [h] at x2
    · exact h

/-- Records that are index entries by themselves. -/
def Single (x : Item) : Prop :=
  ∃ c, kindOf x = some (.inl c) ∧ (toIns c).entry = x.entry ∧ ∀ k, toIns c = k → (∀ a ∈ k.id, isHex a = true) ∧ k.cont = none

theorem singles (P : List Item) (h : ∀ x ∈ P, Single x) : segsL P = [] ∧ (callsL P).map (fun c => (toIns c).entry) = P.map (·.entry) ∧
    (∀ c ∈ callsL P, (∀ a ∈ c.id, isHex a = true) ∧ c.cont = none) ∧ ∀ x ∈ P, kindOf x ≠ none := by
  induction P with
  | nil => exact ⟨rfl, rfl, fun c hc => (by cases hc), fun x hx => (by cases hx)⟩
  | cons x P ih =>
    obtain ⟨i1, i2, i3, i4⟩ := ih fun y hy => h y (by simp [hy])
    obtain ⟨c, c1, c2, c3⟩ := h x (by simp)
    have e1 : segsL (x :: P) = segsL P := by simp [segsL, List.filterMap_cons, c1]
    have e2 : callsL (x :: P) = c :: callsL P := by simp [callsL, List.filterMap_cons, c1]
    rw [e1, e2]
    refine ⟨i1, by rw [List.map_cons, List.map_cons, i2, c2], ?_, ?_⟩
    · intro y hy
      rcases List.mem_cons.1 hy with rfl | hy
      · exact c3 _ rfl
      · exact i3 y hy
    · intro y hy
      rcases List.mem_cons.1 hy with rfl | hy
      · rw [c1]; simp
      · exact i4 y hy

theorem several {env : Env} (he : EnvOk env) (objs : List (Item × List Item)) (h : ∀ o ∈ objs, SegHdrs env.pfx o.1.hdr.id 1 (o.1 :: o.2) ∧ Typed o.1.hdr ∧
    (o.1 :: o.2).length + 1 < 2 ^ 63) :
    segsL (objs.flatMap (fun o => o.1 :: o.2)) = (objs.map fun o => segsOf o.1.hdr.id 1 (o.1 :: o.2)).flatten ∧
    callsL (objs.flatMap (fun o => o.1 :: o.2)) = [] ∧
    ((objs.map fun o => links (segsOf o.1.hdr.id 1 (o.1 :: o.2))).flatten).map (fun c => (toIns c).entry) = (objs.flatMap (fun o => o.1 :: o.2)).map (·.entry) ∧
    ∀ x ∈ objs.flatMap (fun o => o.1 :: o.2), kindOf x ≠ none := by
  induction objs with
  | nil => exact ⟨rfl, rfl, rfl, fun x hx => (by cases hx)⟩
  | cons o objs ih =>
    obtain ⟨i1, i2, i3, i4⟩ := ih fun y hy => h y (by simp [hy])
    obtain ⟨a1, a2, a3⟩ := h o (by simp)
    have hx : ∀ c ∈ o.1.hdr.id, isHex c = true := a1.2.2.2.2.1
    obtain ⟨b1, b2, b3⟩ := kind_segs he hx (o.1 :: o.2) (n := 1) (by omega) (by omega) (fun _ x hx => by cases hx; exact a2) a1
    have sa : ∀ a b, segsL (a ++ b) = segsL a ++ segsL b := fun a b => List.filterMap_append
    have ca : ∀ a b, callsL (a ++ b) = callsL a ++ callsL b := fun a b => List.filterMap_append
    rw [List.flatMap_cons]
    refine ⟨?_, ?_, ?_, ?_⟩
    · rw [sa, b1, i1, List.map_cons, List.flatten_cons]
    · rw [ca, b2, i2]; rfl
    · rw [List.map_cons, List.flatten_cons, List.map_append, List.map_append, i3, links_entries _ a1]
    · intro x hx
      rcases List.mem_append.1 hx with hx | hx
      · exact b3 x hx
      · exact i4 x hx

theorem segsOf_length {fid : Bytes} (l : List Item) : ∀ n, (segsOf fid n l).length = l.length := by
  induction l with
  | nil => intro n; rfl
  | cons x l ih => intro n; simp [segsOf, ih]

theorem inserts_valid (ops : List IdxOp) (h : ∀ o ∈ ops, o.Valid) : ∀ i ∈ inserts ops, i.Valid := by
  induction ops with
  | nil => intro i hi; cases hi
  | cons o ops ih =>
    intro i hi
    cases o with
    | insert j =>
      rcases List.mem_cons.1 hi with rfl | hi
      · exact h (.insert i) (by simp)
      · exact ih (fun o ho => h o (by simp [ho])) i hi
    | housekeep n => exact ih (fun o ho => h o (by simp [ho])) i hi

/-- Reindexing an archive whose silos consist of complete records, on top of any index; what is done to it does not depend on it. -/
theorem reindex_acts {env : Env} (he : EnvOk env) {w : World} {ops : List IdxOp} {A P : List Item} {objs : List (Item × List Item)} {I : List Item}
    (ha : ArchInv env w ops A) (hl : Layout w.silos A) (hp : Parts env g A P objs I) (hf : FirstsDiffer A) (hfew : A.length < 2 ^ 31)
    {ns : List Nat} (hnd : ns.Nodup) (hns : ∀ n, n ∈ ns ↔ w.silos n ≠ none) {sort fuel : Nat} (hsort : sort % 32 = 0 ∧ 0 < sort)
    (hfuel : ∀ n f, w.silos n = some f → f.data.length < fuel) :
    ∃ (ops' : List IdxOp) (A' : List Item), A'.Perm A ∧ (∀ o ∈ ops', o.Valid) ∧ (inserts ops').map Ins.entry = A'.map (·.entry) ∧
      (∃ as, _root_.Verif.Reindex.silosActs env.ps env.pfx env.idSize fuel w.silos ns [] = .ok (as, []) ∧ ops' = as.map (toOp sort)) ∧
      ∀ d d', runOps d ops' = .ok d' → reindexSilos env.ps env.pfx env.idSize sort fuel w.silos ns d [] = .ok (d', []) := by
  -- the records in the order of reading
  obtain ⟨Y, hY⟩ := Classical.axiomOfChoice (r := fun n (X : List Item) => n ∈ ns → ∃ f, w.silos n = some f ∧ X.Perm (A.filter fun x => x.entry.silo = n) ∧
      f.data = siloBytes (X.map (·.record)) ∧ X.map (·.entry.off) = offsets 0 (X.map (·.record))) (fun n => by
    by_cases hn : n ∈ ns
    · have := (hns n).1 hn
      cases h : w.silos n with
      | none => exact absurd h this
      | some f =>
        obtain ⟨X, x1, x2, x3⟩ := hl n f h
        exact ⟨X, fun _ => ⟨f, rfl, x1, x2, x3⟩⟩
    · exact ⟨[], fun h => absurd h hn⟩)
  have hperm : (ns.flatMap Y).Perm A := by
    refine List.Perm.trans (_root_.Verif.Reindex.flatMap_perm (g := fun n => A.filter fun x => x.entry.silo = n) _ fun n hn => ?_) (by_silo (·.entry.silo) ns A hnd ?_)
    · obtain ⟨f, -, x1, -⟩ := hY n hn
      exact x1
    · intro x hx
      obtain ⟨⟨f, _, _, e, -⟩, -⟩ := ha.there x hx
      rw [hns, e]
      simp
  have hall := hperm.trans hp.perm
  obtain ⟨p1, p2, p3, p4⟩ := singles P fun x hx => kind_plain (hp.plain x hx).1 (hp.plain x hx).2.1
  obtain ⟨i1, i2, i3, i4⟩ := singles I fun x hx => kind_info he (hp.info x hx)
  have hlen := hp.perm.length_eq
  simp only [List.length_append] at hlen
  have hobj : ∀ o ∈ objs, (o.1 :: o.2).length ≤ (objs.flatMap (fun o => o.1 :: o.2)).length := by
    intro o ho
    exact List.Sublist.length_le (List.sublist_flatten_of_mem (List.mem_map.2 ⟨o, ho, rfl⟩))
  obtain ⟨o1, o2, o3, o4⟩ := several he objs fun o ho => by
    have := hobj o ho
    exact ⟨(hp.several o ho).2.1, (hp.several o ho).2.2.1, by omega⟩
  have sa : ∀ a b, segsL (a ++ b) = segsL a ++ segsL b := fun a b => List.filterMap_append
  have ca : ∀ a b, callsL (a ++ b) = callsL a ++ callsL b := fun a b => List.filterMap_append
  have hsegs : (segsL (ns.flatMap Y)).Perm (objs.map fun o => segsOf o.1.hdr.id 1 (o.1 :: o.2)).flatten := by
    have : (segsL (ns.flatMap Y)).Perm (segsL (P ++ (objs.flatMap (fun o => o.1 :: o.2) ++ I))) := hall.filterMap _
    rw [sa, sa, p1, i1, o1, List.nil_append, List.append_nil] at this
    exact this
  obtain ⟨C1, m1, m2⟩ := C39_complete (n := env.idSize) (objs := objs.map fun o => (o.1.hdr.id, segsOf o.1.hdr.id 1 (o.1 :: o.2)))
    (order := segsL (ns.flatMap Y)) (by
      intro z hz
      obtain ⟨o, ho, rfl⟩ := List.mem_map.1 hz
      obtain ⟨s1, s2, s3, s4, -⟩ := hp.several o ho
      refine ⟨segsOf_chain s4 o.2 (fun _ => rfl) (by omega), ?_⟩
      rw [segsOf_length, List.length_cons]
      have : 0 < o.2.length := List.length_pos_iff.2 s1
      omega) (by
      rw [List.pairwise_map]
      refine firsts_objs objs (fun o ho => (hp.several o ho).2.1) ?_
      have := firsts_perm hp.perm hf
      unfold FirstsDiffer at this ⊢
      rw [List.pairwise_append, List.pairwise_append] at this
      exact this.2.1.1) (by
      simpa only [List.map_map, Function.comp_def] using hsegs)
  obtain ⟨C, c1, c2⟩ := proc_meet (k := env.idSize) (ns.flatMap Y) (by
    intro x hx
    rcases List.mem_append.1 (hall.mem_iff.1 hx) with hx | hx
    · exact p4 x hx
    · rcases List.mem_append.1 hx with hx | hx
      · exact o4 x hx
      · exact i4 x hx) m1
  have hcalls : (callsL (ns.flatMap Y)).Perm (callsL P ++ callsL I) := by
    have : (callsL (ns.flatMap Y)).Perm (callsL (P ++ (objs.flatMap (fun o => o.1 :: o.2) ++ I))) := hall.filterMap _
    rw [ca, ca, o2, List.nil_append] at this
    exact this
  simp only [List.map_map, Function.comp_def] at m2
  have hC : C.Perm ((callsL P ++ callsL I) ++ (objs.map fun o => links (segsOf o.1.hdr.id 1 (o.1 :: o.2))).flatten) :=
    c2.trans (List.Perm.append hcalls m2)
  have hent : (C.map fun c => (toIns c).entry).Perm (A.map (·.entry)) := by
    refine (hC.map _).trans ?_
    rw [List.map_append, List.map_append, p2, i2, o3]
    refine List.Perm.trans ?_ (hp.perm.map _).symm
    rw [List.map_append, List.map_append, List.append_assoc]
    exact List.Perm.append_left _ List.perm_append_comm
  have hvalid : ∀ c ∈ C, (toIns c).Valid := by
    intro c hc
    have h1 : (toIns c).entry ∈ A.map (·.entry) := hent.mem_iff.1 (List.mem_map.2 ⟨c, hc, rfl⟩)
    rw [← ha.entries] at h1
    obtain ⟨i, hi, hie⟩ := List.mem_map.1 h1
    obtain ⟨-, v2, v3, v4, -⟩ := inserts_valid ops ha.valid i hi
    have q1 := congrArg Entry.flags hie
    have q2 := congrArg Entry.silo hie
    have q3 := congrArg Entry.off hie
    simp only [Ins.entry] at q1 q2 q3
    have hhex : (∀ a ∈ c.id, isHex a = true) ∧ ∀ k, c.cont = some k → ∀ a ∈ k, isHex a = true := by
      rcases List.mem_append.1 (hC.mem_iff.1 hc) with h | h
      · have := (List.mem_append.1 h).elim (p3 c) (i3 c)
        exact ⟨this.1, fun k hk => by rw [this.2] at hk; cases hk⟩
      · obtain ⟨l, hl, h⟩ := List.mem_flatten.1 h
        obtain ⟨o, ho, rfl⟩ := List.mem_map.1 hl
        exact links_hex o.2 (hp.several o ho).2.1 c h
    exact ⟨hhex.1, by rw [← q1]; exact v2, by rw [← q2]; exact v3, by rw [← q3]; exact v4, hhex.2⟩
  obtain ⟨ops', e1, e2, e3, e4⟩ := reindexSilos_acts hsort (ps := env.ps) (pfx := env.pfx) (fuel := fuel) (silos := w.silos) ns (by
    intro n hn
    obtain ⟨f, f1, f2, f3, f4⟩ := hY n hn
    refine ⟨f, f1, f3, f4, hfuel n f f1, ?_⟩
    intro x hx
    obtain ⟨x1, x2⟩ := List.mem_filter.1 (f2.mem_iff.1 hx)
    exact ⟨of_decide_eq_true x2, (ha.there x x1).2⟩) c1
  have hops : ∀ o ∈ ops', o.Valid := by
    intro o ho
    rcases e2 o ho with ⟨c, hc, rfl⟩ | rfl
    · exact hvalid c hc
    · exact hsort
  obtain ⟨A', a1, a2⟩ := perm_map_lift hent A rfl
  refine ⟨ops', A', a1, hops, ?_, e4, e3⟩
  rw [e1, a2, List.map_map]
  rfl

/-- Reindexing an archive whose silos consist of complete records, on top of any index. -/
theorem reindex_over {env : Env} (he : EnvOk env) {w : World} {ops : List IdxOp} {A P : List Item} {objs : List (Item × List Item)} {I : List Item}
    (ha : ArchInv env w ops A) (hl : Layout w.silos A) (hp : Parts env g A P objs I) (hf : FirstsDiffer A) {ops0 : List IdxOp} (hv0 : ∀ o ∈ ops0, o.Valid) {d0 : Dir}
    (hd0 : runOps {} ops0 = .ok d0) (hfew : (inserts ops0).length + A.length < 2 ^ 31)
    {ns : List Nat} (hnd : ns.Nodup) (hns : ∀ n, n ∈ ns ↔ w.silos n ≠ none) {sort fuel : Nat} (hsort : sort % 32 = 0 ∧ 0 < sort)
    (hfuel : ∀ n f, w.silos n = some f → f.data.length < fuel) :
    ∃ (d : Dir) (ops' : List IdxOp) (A' : List Item), reindexSilos env.ps env.pfx env.idSize sort fuel w.silos ns d0 [] = .ok (d, []) ∧ A'.Perm A ∧ runOps {} (ops0 ++ ops') = .ok d ∧
      (∀ o ∈ ops', o.Valid) ∧ (inserts ops').map Ins.entry = A'.map (·.entry) := by
  obtain ⟨ops', A', a1, a2, a3, -, a5⟩ := reindex_acts he ha hl hp hf (by omega) hnd hns hsort hfuel
  have hnum : (inserts ops').length = A.length := by
    have := congrArg List.length a3
    rw [List.length_map, List.length_map, a1.length_eq] at this
    exact this
  obtain ⟨d, -, -, r1, -⟩ := C04_listing_complete (ops0 ++ ops') (fun o ho => (List.mem_append.1 ho).elim (hv0 o) (a2 o)) (by
    rw [inserts_append, List.length_append]
    omega)
  have r2 := r1
  rw [runOps_append, hd0, Res.ok_bind] at r2
  exact ⟨d, ops', A', a5 _ _ r2, a1, r1, a2, a3⟩

/-- Reindexing into an empty index. -/
theorem reindex_parts {env : Env} (he : EnvOk env) {w : World} {ops : List IdxOp} {A P : List Item} {objs : List (Item × List Item)} {I : List Item}
    (ha : ArchInv env w ops A) (hl : Layout w.silos A) (hp : Parts env g A P objs I) (hf : FirstsDiffer A) (hfew : A.length < 2 ^ 31)
    {ns : List Nat} (hnd : ns.Nodup) (hns : ∀ n, n ∈ ns ↔ w.silos n ≠ none) {sort fuel : Nat} (hsort : sort % 32 = 0 ∧ 0 < sort)
    (hfuel : ∀ n f, w.silos n = some f → f.data.length < fuel) :
    ∃ d ops' A', reindexSilos env.ps env.pfx env.idSize sort fuel w.silos ns {} [] = .ok (d, []) ∧ A'.Perm A ∧ ArchInv env { w with dir := d } ops' A' := by
  obtain ⟨d, ops', A', r1, r2, r3, r4, r5⟩ := reindex_over he ha hl hp hf (ops0 := []) (fun o ho => (by cases ho)) rfl
    (by rw [show inserts ([] : List IdxOp) = [] from rfl]; simpa using hfew) hnd hns hsort hfuel
  exact ⟨d, ops', A', r1, r2, r3, r4, r5, fun x hx => ha.there x (r2.mem_iff.1 hx), fun x hx => ha.text x (r2.mem_iff.1 hx)⟩

/-- C40: after any history of stores and housekeeping runs that started with an empty archive, removing the index and reindexing all silos succeeds, leaves
no segment unmatched, and gives an index with exactly the entries of the old one; the archive is then the same as before, except for the order of the
index.  The condition is that no two segmented objects have the same ID. -/
theorem C40_reindex_partial {σ : Type} {env : Env} {D : Deflater σ} (hz : Zlib D) (he : EnvOk env) {g : Bool} {w0 w : World} (hw0 : w0.dir = {}) (hs0 : ∀ n, w0.silos n = none)
    (hl : Stores env D g w0 w) {ns : List Nat} (hnd : ns.Nodup) (hns : ∀ n, n ∈ ns ↔ w.silos n ≠ none) {sort fuel : Nat} (hsort : sort % 32 = 0 ∧ 0 < sort)
    (hfuel : ∀ n f, w.silos n = some f → f.data.length < fuel) :
    ∃ ops A, ArchInv env w ops A ∧ (FirstsDiffer A → A.length < 2 ^ 31 →
      ∃ d es r es' r' ops' A', reindexSilos env.ps env.pfx env.idSize sort fuel w.silos ns {} [] = .ok (d, []) ∧
        listing w.dir = .ok (es, r) ∧ listing d = .ok (es', r') ∧ (∀ e, e ∈ es' ↔ e ∈ es) ∧ A'.Perm A ∧ ArchInv env { w with dir := d } ops' A') := by
  obtain ⟨ops, A, P, objs, I, h1, h2, h3⟩ := stores_inv hz he hl hw0 hs0
  refine ⟨ops, A, h1, fun hf hfew => ?_⟩
  obtain ⟨d, ops', A', r1, r2, r3⟩ := reindex_parts he h1 h2 h3 hf hfew hnd hns hsort hfuel
  have n1 := congrArg List.length h1.entries
  have n2 := congrArg List.length r3.entries
  have n3 := r2.length_eq
  simp only [List.length_map] at n1 n2
  obtain ⟨d1, es, r, a1, a2, a3, -⟩ := C04_listing_complete ops h1.valid (by omega)
  obtain ⟨d2, es', r', b1, b2, b3, -⟩ := C04_listing_complete ops' r3.valid (by omega)
  have := h1.dir
  rw [a1] at this
  cases this
  have := r3.dir
  rw [b1] at this
  cases this
  refine ⟨d, es, r, es', r', ops', A', r1, a2, b2, ?_, r2, r3⟩
  intro e
  rw [a3, b3]
  have k1 : (∃ i ∈ inserts ops, i.entry = e) ↔ e ∈ A.map (·.entry) := by rw [← h1.entries, List.mem_map]
  have k2 : (∃ i ∈ inserts ops', i.entry = e) ↔ e ∈ A'.map (·.entry) := by rw [← r3.entries, List.mem_map]
  rw [k1, k2]
  exact (r2.map _).mem_iff

end Verif.Props
