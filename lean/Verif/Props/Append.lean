/-
Property C57: where objects in one segment go.
-/
import Verif.Props.Dense
import Verif.Props.StoreExample

namespace Verif.Props
open Verif Header Gzip Ident Index Wsilo Segjob Getjob Spec Inflate
open _root_.Verif.Commit (upd Silo)
open _root_.Verif.Cache (Cache readCache writeCache bumpNon bumpSpace)

/-- The silo can take `need` bytes more, and no other process is at it. -/
def Room (max : Nat) (w : World) (need n : Nat) : Prop := ∃ f, w.silos n = some f ∧ f.writable = true ∧ f.data.length + need ≤ max ∧ w.holds n = false

/-- The silo is write-protected. -/
def Protected (w : World) (n : Nat) : Prop := ∃ f, w.silos n = some f ∧ f.writable = false

theorem room_congr {max need n : Nat} {w w' : World} (h1 : w'.silos = w.silos) (h2 : w'.holds = w.holds) : Room max w' need n ↔ Room max w need n := by
  unfold Room
  rw [h1, h2]

theorem protected_congr {n : Nat} {w w' : World} (h1 : w'.silos = w.silos) : Protected w' n ↔ Protected w n := by
  unfold Protected
  rw [h1]

theorem attemptAppend_cases {env : Env} {w w' : World} {sl : Sl} {sn : Nat} {hz id : Bytes} {r : Int} (e : attemptAppend env w sl sn hz id = .ok (w', r)) :
    w'.holds = w.holds ∧
    (r = 1 ∧ Room env.max w (hz.length + sl.tail.length) sn ∧
        (∃ f, w.silos sn = some f ∧ w'.silos = upd w.silos sn (some { f with data := f.data ++ (hz ++ sl.tail) })) ∨
     r = -1 ∧ Protected w sn ∧ w'.silos = w.silos ∧ w'.cache.firstSpace = w.cache.firstSpace ∧ w'.dir = w.dir ∨
     r = 0 ∧ ¬ Protected w sn ∧ ¬ Room env.max w (hz.length + sl.tail.length) sn ∧ w'.silos = w.silos) := by
  unfold attemptAppend at e
  cases hf : w.silos sn with
  | none =>
    rw [hf] at e
    cases e
    refine ⟨rfl, .inr (.inr ⟨rfl, ?_, ?_, rfl⟩)⟩
    · rintro ⟨f, h, -⟩
      rw [hf] at h
      cases h
    · rintro ⟨f, h, -⟩
      rw [hf] at h
      cases h
  | some f =>
    rw [hf] at e
    simp only at e
    obtain ⟨a1, a2⟩ := putCache_same w (bumpNon sn w.cache)
    obtain ⟨p1, p2⟩ := putCache_holds w (bumpNon sn w.cache)
    have hfs : (bumpNon sn w.cache).firstSpace = w.cache.firstSpace := by unfold bumpNon; split <;> rfl
    obtain ⟨w1, hw1⟩ : ∃ w1, w1 = putCache w (bumpNon sn w.cache) := ⟨_, rfl⟩
    rw [← hw1] at e a1 a2 p1 p2
    obtain ⟨b1, b2⟩ := putCache_same w1 (bumpSpace env.max f.data.length sn w1.cache)
    obtain ⟨q1, q2⟩ := putCache_holds w1 (bumpSpace env.max f.data.length sn w1.cache)
    obtain ⟨w2, hw2⟩ : ∃ w2, w2 = putCache w1 (bumpSpace env.max f.data.length sn w1.cache) := ⟨_, rfl⟩
    rw [← hw2] at e b1 b2 q1 q2
    have hnp : f.writable ≠ false → ¬ Protected w sn := by
      rintro hw ⟨g, h1, h2⟩
      rw [hf] at h1
      cases h1
      exact hw h2
    split at e
    · rename_i hw
      cases e
      exact ⟨p1, .inr (.inl ⟨rfl, ⟨f, hf, hw⟩, a1, by rw [p2, hfs], a2⟩)⟩
    · rename_i hw
      split at e
      · rename_i hle
        cases e
        refine ⟨q1.trans p1, .inr (.inr ⟨rfl, hnp hw, ?_, b1.trans a1⟩)⟩
        rintro ⟨g, h1, -, h2, -⟩
        rw [hf] at h1
        cases h1
        omega
      · rename_i hle
        unfold appendTo at e
        split at e
        · rename_i hh
          cases e
          refine ⟨q1.trans p1, .inr (.inr ⟨rfl, hnp hw, ?_, b1.trans a1⟩)⟩
          rintro ⟨g, -, -, -, h3⟩
          rw [q1, p1, h3] at hh
          cases hh
        · rename_i hh
          simp only [Res.bind_eq_ok, Res.check_eq_ok, exists_const, Res.pure_eq, Res.ok.injEq, Prod.mk.injEq] at e
          obtain ⟨-, d, -, rfl, rfl⟩ := e
          refine ⟨q1.trans p1, .inl ⟨rfl, ⟨f, hf, by simpa using hw, by omega, ?_⟩, f, rfl, by simp only; rw [b1, a1]⟩⟩
          rw [q1, p1] at hh
          simpa using hh

/-- C57: appending takes the first silo, from the one where the search begins, that can be written to, has room, and is not being
written to; unless there is a write-protected silo before it. -/
theorem C57_first_fit {env : Env} {sl : Sl} {hz id : Bytes} (k : Nat) : ∀ {sn : Nat} {w w' : World} {r : Bool}, appendLoop env sl hz id k sn w = .ok (w', r) →
    (r = true ∧ ∃ j f, sn ≤ j ∧ j < sn + k ∧ Room env.max w (hz.length + sl.tail.length) j ∧
        (∀ i, sn ≤ i → i < j → ¬ Room env.max w (hz.length + sl.tail.length) i ∧ ¬ Protected w i) ∧
        w.silos j = some f ∧ w'.silos = upd w.silos j (some { f with data := f.data ++ (hz ++ sl.tail) })) ∨
    (r = false ∧ w'.silos = w.silos ∧ ∀ j, sn ≤ j → j < sn + k → Room env.max w (hz.length + sl.tail.length) j → ∃ i, sn ≤ i ∧ i < j ∧ Protected w i) := by
  induction k with
  | zero =>
    intro sn w w' r e
    cases e
    exact .inr ⟨rfl, rfl, fun j h1 h2 => by omega⟩
  | succ k ih =>
    intro sn w w' r e
    rw [appendLoop, Res.bind_eq_ok] at e
    obtain ⟨⟨w1, r1⟩, e1, e2⟩ := e
    obtain ⟨hh, ⟨rfl, c1, f, c2, c3⟩ | ⟨rfl, c1, c2, -⟩ | ⟨rfl, c1, c2, c3⟩⟩ := attemptAppend_cases e1
    · simp only [if_true, Res.pure_eq, Res.ok.injEq, Prod.mk.injEq] at e2
      obtain ⟨rfl, rfl⟩ := e2
      exact .inl ⟨rfl, sn, f, Nat.le_refl _, by omega, c1, fun i h1 h2 => by omega, c2, c3⟩
    · simp only at e2
      rw [if_neg (by decide), if_pos (by trivial)] at e2
      simp only [Res.pure_eq, Res.ok.injEq, Prod.mk.injEq] at e2
      obtain ⟨rfl, rfl⟩ := e2
      refine .inr ⟨rfl, c2, fun j h1 h2 h3 => ⟨sn, Nat.le_refl _, ?_, c1⟩⟩
      rcases Nat.eq_or_lt_of_le h1 with h | h
      · obtain ⟨f, f1, f2, -⟩ := h3
        obtain ⟨g, g1, g2⟩ := c1
        rw [← h, g1] at f1
        cases f1
        rw [g2] at f2
        cases f2
      · exact h
    · simp only at e2
      rw [if_neg (by decide), if_neg (by decide)] at e2
      rcases ih e2 with ⟨rfl, j, f, d1, d2, d3, d4, d5, d6⟩ | ⟨rfl, d1, d2⟩
      · rw [room_congr c3 hh] at d3
        refine .inl ⟨rfl, j, f, by omega, by omega, d3, ?_, by rw [← c3]; exact d5, by rw [d6, c3]⟩
        intro i h1 h2
        rcases Nat.eq_or_lt_of_le h1 with h | h
        · rw [← h]
          exact ⟨c2, c1⟩
        · have := d4 i h h2
          rw [room_congr c3 hh, protected_congr c3] at this
          exact this
      · refine .inr ⟨rfl, d1.trans c3, fun j h1 h2 h3 => ?_⟩
        rcases Nat.eq_or_lt_of_le h1 with h | h
        · rw [← h] at h3
          exact absurd h3 c2
        · obtain ⟨i, i1, i2, i3⟩ := d2 j h (by omega) ((room_congr c3 hh).2 h3)
          exact ⟨i, by omega, i2, (protected_congr c3).1 i3⟩

/-! ### A write-protected silo stops all appending -/

/-- The search for space begins at a write-protected silo, in this process and in the next. -/
def Stuck (w : World) (k : Nat) : Prop := w.cache.firstSpace = k ∧ (readCache w.cacheFile w.cache).firstSpace = k ∧ Protected w k

/-- A later state in which no silo has changed. -/
def Untouched (w w' : World) : Prop := ∀ n f, w.silos n = some f → w'.silos n = some f

theorem stuck_putCache {w : World} {k : Nat} (h : Stuck w k) {c : Cache} (hc : c.firstSpace = w.cache.firstSpace) (hn : c.firstNon < 2 ^ 32) (hk : k < 2 ^ 32) : Stuck (putCache w c) k := by
  obtain ⟨h1, h2, h3⟩ := h
  unfold putCache
  split
  · exact ⟨h1, h2, h3⟩
  · refine ⟨by rw [← h1]; exact hc, ?_, h3⟩
    simp only
    rw [C30_roundtrip w.cacheFile c c hn (by rw [hc, h1]; exact hk), hc]
    exact h1

theorem bumpNon_lt {sn : Nat} {c : Cache} (h : c.firstNon < 2 ^ 32) : (bumpNon sn c).firstNon < 2 ^ 32 ∧ (bumpNon sn c).firstSpace = c.firstSpace := by
  unfold bumpNon
  split
  · exact ⟨Nat.mod_lt _ (by decide), rfl⟩
  · exact ⟨h, rfl⟩

theorem install_stuck {env : Env} {w w' : World} {sl : Sl} {segd : Bool} {id : Bytes} {rid : Option Bytes} {k : Nat} (h : Stuck w k) (hk : k < 2 ^ 32)
    (hn : w.cache.firstNon < 2 ^ 32) (e : install env w sl segd id rid = .ok w') :
    Stuck w' k ∧ Untouched w w' ∧ w.silos sl.no = none ∧ w'.silos sl.no ≠ none ∧ w'.cache.firstNon < 2 ^ 32 := by
  unfold install at e
  simp only [Res.bind_eq_ok, Res.check_eq_ok, exists_const, Res.pure_eq, Res.ok.injEq] at e
  obtain ⟨file, -, fl, -, d, -, d2, -, e5, e6⟩ := e
  have e5 := of_decide_eq_true e5
  obtain ⟨w1, hw1⟩ : ∃ w1 : World, w1 = { w with dir := d2, silos := upd w.silos sl.no (some { data := file, writable := true }) } := ⟨_, rfl⟩
  have hu : Untouched w w1 := by
    intro n f hf
    rw [hw1]
    simp only [upd]
    rw [if_neg]
    · exact hf
    · rintro rfl
      rw [e5] at hf
      cases hf
  have hs1 : Stuck w1 k := by
    obtain ⟨h1, h2, f, h3, h4⟩ := h
    refine ⟨by rw [hw1]; exact h1, by rw [hw1]; exact h2, f, hu k f h3, h4⟩
  have hc : w1.cache = w.cache := by rw [hw1]
  obtain ⟨b1, b2⟩ := bumpNon_lt (sn := sl.no) hn
  rw [← hw1] at e6
  have hs2 := stuck_putCache hs1 (c := bumpNon sl.no w.cache) (by rw [b2, hc]) b1 hk
  obtain ⟨p1, -⟩ := putCache_same w1 (bumpNon sl.no w.cache)
  obtain ⟨-, p2⟩ := putCache_holds w1 (bumpNon sl.no w.cache)
  have hsil : w'.silos = w1.silos := by rw [← e6]; exact p1
  refine ⟨?_, ?_, e5, ?_, ?_⟩
  · rw [← e6]
    exact hs2
  · intro n f hf
    rw [hsil]
    exact hu n f hf
  · rw [hsil, hw1]
    simp [upd]
  · rw [← e6]
    show (putCache w1 (bumpNon sl.no w.cache)).cache.firstNon < _
    rw [p2]
    exact b1

theorem wsiloCommit_stuck {env : Env} {w w' : World} {sl : Sl} {segd : Bool} {id : Bytes} {rid : Option Bytes} {k : Nat} (h : Stuck w k) (hk : k < 2 ^ 32)
    (hn : w.cache.firstNon < 2 ^ 32) (e : wsiloCommit env w sl segd id rid = .ok w') :
    Stuck w' k ∧ Untouched w w' ∧ w.silos sl.no = none ∧ w'.silos sl.no ≠ none ∧ w'.cache.firstNon < 2 ^ 32 := by
  unfold wsiloCommit at e
  split at e
  · simp only [Res.bind_eq_ok] at e
    obtain ⟨⟨w1, r⟩, e1, e2⟩ := e
    simp only at e2
    cases hk2 : sl.no - w.cache.firstSpace with
    | zero =>
      rw [hk2] at e1
      cases e1
      exact install_stuck h hk hn e2
    | succ m =>
      rw [hk2, h.1, appendLoop, Res.bind_eq_ok] at e1
      obtain ⟨⟨w2, r2⟩, e3, e4⟩ := e1
      unfold attemptAppend at e3
      obtain ⟨f, hf, hw⟩ := h.2.2
      rw [hf] at e3
      simp only [hw, if_true, Res.ok.injEq, Prod.mk.injEq] at e3
      obtain ⟨e3, rfl⟩ := e3
      simp only at e4
      rw [if_neg (by decide), if_pos (by trivial)] at e4
      simp only [Res.pure_eq, Res.ok.injEq, Prod.mk.injEq] at e4
      obtain ⟨rfl, rfl⟩ := e4
      obtain ⟨b1, b2⟩ := bumpNon_lt (sn := k) hn
      have hs := stuck_putCache h (c := bumpNon k w.cache) b2 b1 hk
      obtain ⟨p1, -⟩ := putCache_same w (bumpNon k w.cache)
      obtain ⟨-, p2⟩ := putCache_holds w (bumpNon k w.cache)
      rw [e3] at hs p1 p2
      rw [if_neg (by simp)] at e2
      obtain ⟨c1, c2, c3, c4, c5⟩ := install_stuck hs hk (by rw [p2]; exact b1) e2
      refine ⟨c1, fun n f hf => c2 n f (by rw [p1]; exact hf), by rw [← p1]; exact c3, c4, c5⟩
  · exact install_stuck h hk hn e

theorem commitSegs_stuck {env : Env} {fid : Bytes} {size : Nat} {k : Nat} (hk : k < 2 ^ 32) (ss : List Seg) : ∀ {w w' : World}, Stuck w k →
    w.cache.firstNon < 2 ^ 32 → commitSegs env fid size ss w = .ok w' → Stuck w' k ∧ Untouched w w' ∧ w'.cache.firstNon < 2 ^ 32 ∧
      ∀ s ∈ ss, w.silos s.silo.no = none ∧ w'.silos s.silo.no ≠ none := by
  induction ss with
  | nil => intro w w' h hn e; cases e; exact ⟨h, fun _ _ h => h, hn, fun s hs => by cases hs⟩
  | cons s ss ih =>
    intro w w' h hn e
    rw [commitSegs] at e
    simp only [Res.bind_eq_ok] at e
    obtain ⟨h1, -, h2, -, w1, e1, e2⟩ := e
    obtain ⟨a1, a2, a3, a4, a5⟩ := wsiloCommit_stuck h hk hn e1
    obtain ⟨b1, b2, b3, b4⟩ := ih a1 a5 e2
    refine ⟨b1, fun n f hf => b2 n f (a2 n f hf), b3, fun t ht => ?_⟩
    rcases List.mem_cons.1 ht with rfl | ht
    · refine ⟨a3, ?_⟩
      cases hs : w1.silos t.silo.no with
      | none => exact absurd hs a4
      | some f => rw [b2 _ f hs]; simp
    · obtain ⟨c1, c2⟩ := b4 t ht
      refine ⟨?_, c2⟩
      cases hs : w.silos t.silo.no with
      | none => rfl
      | some f => rw [a2 _ f hs] at c1; cases c1

/-- C57 is false in general: once the search for space begins at a write-protected silo, nothing is ever appended to any silo again.  Every store of a new
object makes a new silo, however small the object and however empty the other silos, and leaves the search where it was. -/
theorem C57_counterexample_protected {σ : Type} {env : Env} {D : Deflater σ} (hz : Zlib D) (he : EnvOk env) {fuel : Nat} {w w' : World} {h : Hdr} {ident : Option Bytes}
    {cs : List Bytes} (hc : GoodInput env cs) {uri : Bytes} {k : Nat} (hk : k < 2 ^ 32) (hst : Stuck w k) (hn : w.cache.firstNon < 2 ^ 32)
    (e : storeObj env D fuel w h ident cs = .ok (w', uri)) :
    Stuck w' k ∧ Untouched w w' ∧ w'.cache.firstNon < 2 ^ 32 ∧
      (w'.silos = w.silos ∧ (∃ (v : World) (id : Bytes) (gj : GJ), v.silos = w.silos ∧ v.dir = w.dir ∧ getjobNew env.ps env.pfx env.idSize fuel v id = .ok (.job gj)) ∨
        ∃ n, w.silos n = none ∧ w'.silos n ≠ none) := by
  unfold storeObj segjobCommit at e
  simp only [Res.bind_eq_ok] at e
  obtain ⟨sj, e0, ⟨w1, sj1⟩, e1, ⟨w2, sj2⟩, e2, e3⟩ := e
  simp only at e2 e3
  obtain ⟨a1, -, -, -, a5, a6⟩ := fed_inv hz he.max hc.1 hc.2.1 e0 e1 e2
  have hrd : readCache w.cacheFile (readCache w.cacheFile w.cache) = readCache w.cacheFile w.cache := readCache_idem _ _
  have hlt : (readCache w.cacheFile w.cache).firstNon < 2 ^ 32 := by
    cases hf : w.cacheFile with
    | none => exact hn
    | some b =>
      by_cases hb : (b.take 8).length = 8
      · simp only [readCache, if_pos hb]
        have h1 : ∀ l : Bytes, beDec l < 256 ^ l.length := beDec_lt
        have h2 := h1 (b.take 4)
        rw [List.length_take] at h2
        rw [List.length_take] at hb
        have h3 : min 4 b.length = 4 := by omega
        rw [h3] at h2
        exact h2
      · simp only [readCache, if_neg hb]
        exact hn
  have hs2 : Stuck w2 k ∧ w2.cache.firstNon < 2 ^ 32 := by
    obtain ⟨s1, s2, s3⟩ := hst
    rcases a6.cache with h | h
    · exact ⟨⟨by rw [h]; exact s1, by rw [h, a6.cacheFile]; exact s2, (protected_congr a6.silos).2 s3⟩, by rw [h]; exact hn⟩
    · exact ⟨⟨by rw [h]; exact s2, by rw [h, a6.cacheFile, hrd]; exact s2, (protected_congr a6.silos).2 s3⟩, by rw [h]; exact hlt⟩
  obtain ⟨hs2, hn2⟩ := hs2
  unfold commitJob at e3
  simp only [Res.bind_eq_ok, Res.check_eq_ok, exists_const] at e3
  obtain ⟨-, e3⟩ := e3
  cases hsegs : sj2.segs with
  | nil => rw [hsegs] at e3; cases e3
  | cons s ss =>
    rw [hsegs] at e3
    simp only [Res.bind_eq_ok] at e3
    obtain ⟨s', e4, uri', -, g, eg, e5⟩ := e3
    cases g with
    | job gj =>
      simp only [Res.pure_eq, Res.ok.injEq, Prod.mk.injEq] at e5
      obtain ⟨rfl, -⟩ := e5
      obtain ⟨d1, -, d3, -⟩ := destroy_same (s' :: ss) w2
      have d5 : ∀ (ss : List Seg) (w : World), (destroy w ss).cache = w.cache := by
        intro ss
        induction ss with
        | nil => intro w; rfl
        | cons s ss ih => intro w; exact (ih (abandon w s.silo)).trans rfl
      obtain ⟨s1, s2, s3⟩ := hs2
      refine ⟨⟨by rw [d5]; exact s1, by rw [d5, d3]; exact s2, (protected_congr d1).2 s3⟩, ?_, by rw [d5]; exact hn2,
        .inl ⟨d1.trans a6.silos, w2, s'.hdr.id, gj, a6.silos, a6.dir, eg⟩⟩
      intro n f hf
      rw [d1, a6.silos]
      exact hf
    | error er =>
      simp only [Res.bind_eq_ok, Res.pure_eq, Res.ok.injEq, Prod.mk.injEq] at e5
      obtain ⟨w3, e5, rfl, -⟩ := e5
      by_cases h0 : ss = []
      · rw [if_pos h0] at e5
        obtain ⟨b1, b2, b3, b4, b5⟩ := wsiloCommit_stuck hs2 hk hn2 e5
        refine ⟨b1, fun n f hf => b2 n f (by rw [a6.silos]; exact hf), b5, .inr ⟨s'.silo.no, by rw [← a6.silos]; exact b3, b4⟩⟩
      · rw [if_neg h0] at e5
        obtain ⟨b1, b2, b3, b4⟩ := commitSegs_stuck hk _ hs2 hn2 e5
        obtain ⟨b5, b6⟩ := b4 s' (by simp)
        exact ⟨b1, fun n f hf => b2 n f (by rw [a6.silos]; exact hf), b3, .inr ⟨s'.silo.no, by rw [← a6.silos]; exact b5, b6⟩⟩

end Verif.Props
