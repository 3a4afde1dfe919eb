/-
Property C56: the silos are numbered without gaps, and the cached numbers are right.
-/
import Verif.Props.AuditArch
import Verif.Props.Commit

namespace Verif.Props
open Verif Header Gzip Ident Index Wsilo Segjob Getjob Spec Inflate
open _root_.Verif.Commit (upd Silo)
open _root_.Verif.Cache (Cache readCache writeCache bumpNon bumpSpace)

/-- Cached numbers that are right: below `firstNon` all silos exist, and below `firstSpace` all silos have less space left than
there are silos. -/
structure GoodCache (max N : Nat) (silos : Nat → Option Silo) (c : Cache) : Prop where
  non : c.firstNon ≤ N
  order : c.firstSpace ≤ c.firstNon
  full : ∀ n, n < c.firstSpace → ∃ f, silos n = some f ∧ max < f.data.length + N

/-- The silos are those with numbers below `N`, and the cached numbers are right, in memory and in the cache file. -/
structure Tight (max : Nat) (w : World) (N : Nat) : Prop where
  silos : ∀ n, w.silos n ≠ none ↔ n < N
  few : N < 2 ^ 32
  cache : GoodCache max N w.silos w.cache
  file : ∀ c, GoodCache max N w.silos c → GoodCache max N w.silos (readCache w.cacheFile c)

/-! ### Steps -/

theorem goodCache_grown {max N M : Nat} {s s' : Nat → Option Silo} (hg : Grown s s') (hNM : N ≤ M) {c : Cache} (h : GoodCache max N s c) : GoodCache max M s' c := by
  refine ⟨Nat.le_trans h.non hNM, h.order, fun n hn => ?_⟩
  obtain ⟨f, h1, h2⟩ := h.full n hn
  obtain ⟨g, x, h3, h4⟩ := hg n f h1
  refine ⟨g, h3, ?_⟩
  rw [h4, List.length_append]
  omega

theorem goodCache_congr {max N : Nat} {s s' : Nat → Option Silo} (hs : ∀ n, (s' n).map (·.data) = (s n).map (·.data)) {c : Cache} (h : GoodCache max N s c) :
    GoodCache max N s' c := by
  refine ⟨h.non, h.order, fun n hn => ?_⟩
  obtain ⟨f, h1, h2⟩ := h.full n hn
  have h3 := hs n
  rw [h1] at h3
  cases h4 : s' n with
  | none => rw [h4] at h3; cases h3
  | some g =>
    rw [h4] at h3
    simp only [Option.map_some, Option.some.injEq] at h3
    exact ⟨g, rfl, by rw [h3]; exact h2⟩

theorem good_bumpNon {max N : Nat} {s : Nat → Option Silo} {c : Cache} (h : GoodCache max N s c) (hN : N < 2 ^ 32) {sn : Nat} (hsn : sn < N) :
    GoodCache max N s (bumpNon sn c) ∧ (c.firstSpace ≤ sn → sn = (bumpNon sn c).firstSpace → sn < (bumpNon sn c).firstNon) := by
  unfold bumpNon
  have h1 := h.non
  have h2 := h.order
  by_cases he : sn = c.firstNon
  · rw [if_pos he]
    have : (c.firstNon + 1) % 2 ^ 32 = c.firstNon + 1 := Nat.mod_eq_of_lt (by omega)
    rw [this]
    exact ⟨⟨by simp only; omega, by simp only; omega, h.full⟩, fun _ _ => by simp only; omega⟩
  · rw [if_neg he]
    exact ⟨h, fun a b => by omega⟩

theorem good_bumpSpace {max N : Nat} {s : Nat → Option Silo} {c : Cache} (h : GoodCache max N s c) (hN : N < 2 ^ 32) {sn : Nat} {f : Silo}
    (hf : s sn = some f) (hlt : sn = c.firstSpace → sn < c.firstNon) : GoodCache max N s (bumpSpace max f.data.length sn c) := by
  unfold bumpSpace
  simp only
  have h1 := h.non
  have h2 := h.order
  by_cases he : sn = c.firstSpace ∧ (max : Int) - f.data.length < ((c.firstNon : Int) - c.firstSpace) % 2 ^ 32
  · rw [if_pos he]
    obtain ⟨e1, e2⟩ := he
    have h3 := hlt e1
    have h4 : ((c.firstNon : Int) - c.firstSpace) % 2 ^ 32 = (c.firstNon : Int) - c.firstSpace := Int.emod_eq_of_lt (by omega) (by omega)
    rw [h4] at e2
    have h5 : (c.firstSpace + 1) % 2 ^ 32 = c.firstSpace + 1 := Nat.mod_eq_of_lt (by omega)
    rw [h5]
    refine ⟨h1, by simp only; omega, fun n hn => ?_⟩
    simp only at hn
    by_cases hn2 : n < c.firstSpace
    · exact h.full n hn2
    · have : n = sn := by omega
      rw [this]
      exact ⟨f, hf, by omega⟩
  · rw [if_neg he]
    exact h

theorem putCache_holds (w : World) (c : Cache) : (putCache w c).holds = w.holds ∧ (putCache w c).cache = c := by
  unfold putCache
  split
  · rename_i h
    exact ⟨rfl, h.symm⟩
  · exact ⟨rfl, rfl⟩

theorem putCache_tight {max N : Nat} {w : World} (h : Tight max w N) {c : Cache} (hc : GoodCache max N w.silos c) : Tight max (putCache w c) N := by
  unfold putCache
  split
  · exact h
  · refine ⟨h.silos, h.few, hc, fun d _ => ?_⟩
    have := h.few
    have h1 := hc.non
    have h2 := hc.order
    simp only
    rw [C30_roundtrip w.cacheFile c d (by omega) (by omega)]
    exact hc

theorem attemptAppend_tight {env : Env} {w w' : World} {sl : Sl} {sn N : Nat} {hz id : Bytes} {r : Int} (h : Tight env.max w N)
    (hsp : w.cache.firstSpace ≤ sn) (e : attemptAppend env w sl sn hz id = .ok (w', r)) :
    Tight env.max w' N ∧ w'.holds = w.holds ∧ w'.cache.firstSpace ≤ sn + 1 := by
  unfold attemptAppend at e
  cases hf : w.silos sn with
  | none =>
    rw [hf] at e
    cases e
    exact ⟨h, rfl, by omega⟩
  | some f =>
    rw [hf] at e
    simp only at e
    have hsn : sn < N := (h.silos sn).1 (by rw [hf]; simp)
    obtain ⟨g1, g2⟩ := good_bumpNon h.cache h.few hsn
    have t1 := putCache_tight h g1
    obtain ⟨p1, p2⟩ := putCache_holds w (bumpNon sn w.cache)
    obtain ⟨s1, -⟩ := putCache_same w (bumpNon sn w.cache)
    have hfs : (bumpNon sn w.cache).firstSpace = w.cache.firstSpace := by unfold bumpNon; split <;> rfl
    obtain ⟨w1, hw1⟩ : ∃ w1, w1 = putCache w (bumpNon sn w.cache) := ⟨_, rfl⟩
    rw [← hw1] at e t1 p1 p2 s1
    have g3 := good_bumpSpace t1.cache h.few (sn := sn) (f := f) (by rw [s1]; exact hf) (by rw [p2]; exact g2 hsp)
    have t2 := putCache_tight t1 g3
    obtain ⟨q1, q2⟩ := putCache_holds w1 (bumpSpace env.max f.data.length sn w1.cache)
    obtain ⟨s2, -⟩ := putCache_same w1 (bumpSpace env.max f.data.length sn w1.cache)
    have hfs2 : (bumpSpace env.max f.data.length sn w1.cache).firstSpace ≤ sn + 1 := by
      unfold bumpSpace
      simp only
      split
      · rename_i hc
        simp only
        have := Nat.mod_le (w1.cache.firstSpace + 1) (2 ^ 32)
        omega
      · rw [p2, hfs]; omega
    obtain ⟨w2, hw2⟩ : ∃ w2, w2 = putCache w1 (bumpSpace env.max f.data.length sn w1.cache) := ⟨_, rfl⟩
    rw [← hw2] at e t2 q1 q2 s2
    split at e
    · cases e
      exact ⟨t1, p1, by rw [p2, hfs]; omega⟩
    · split at e
      · cases e
        exact ⟨t2, q1.trans p1, by rw [q2]; exact hfs2⟩
      · unfold appendTo at e
        split at e
        · cases e
          exact ⟨t2, q1.trans p1, by rw [q2]; exact hfs2⟩
        · simp only [Res.bind_eq_ok, Res.check_eq_ok, exists_const, Res.pure_eq, Res.ok.injEq, Prod.mk.injEq] at e
          obtain ⟨-, d, -, rfl, -⟩ := e
          have hf2 : w2.silos sn = some f := by rw [s2, s1]; exact hf
          have hg : Grown w2.silos (upd w2.silos sn (some { f with data := f.data ++ (hz ++ sl.tail) })) :=
            grown_upd (fun g hg => by rw [hf2] at hg; cases hg; exact ⟨_, rfl⟩)
          refine ⟨⟨?_, t2.few, goodCache_grown hg (Nat.le_refl _) t2.cache, ?_⟩, q1.trans p1, by simp only [q2]; exact hfs2⟩
          · intro n
            simp only [upd]
            split
            · rename_i hn
              rw [hn]
              simp [hsn]
            · exact t2.silos n
          · intro c hc
            simp only at hc ⊢
            -- the file's numbers do not depend on those in memory, or are those
            cases hcf : w2.cacheFile with
            | none => exact hc
            | some b =>
              by_cases hb : (b.take 8).length = 8
              · have := t2.file w2.cache t2.cache
                rw [hcf] at this
                simp only [readCache, if_pos hb] at this ⊢
                exact goodCache_grown hg (Nat.le_refl _) this
              · simp only [readCache, if_neg hb]
                exact hc

theorem appendLoop_tight {env : Env} {sl : Sl} {hz id : Bytes} {N : Nat} (k : Nat) : ∀ {sn : Nat} {w w' : World} {r : Bool}, Tight env.max w N →
    w.cache.firstSpace ≤ sn → appendLoop env sl hz id k sn w = .ok (w', r) → Tight env.max w' N ∧ w'.holds = w.holds := by
  induction k with
  | zero => intro sn w w' r h _ e; cases e; exact ⟨h, rfl⟩
  | succ k ih =>
    intro sn w w' r h hsp e
    rw [appendLoop, Res.bind_eq_ok] at e
    obtain ⟨⟨w1, r1⟩, e1, e2⟩ := e
    obtain ⟨a1, a2, a3⟩ := attemptAppend_tight h hsp e1
    simp only at e2
    split at e2
    · simp only [Res.pure_eq, Res.ok.injEq, Prod.mk.injEq] at e2
      obtain ⟨rfl, rfl⟩ := e2
      exact ⟨a1, a2⟩
    · split at e2
      · simp only [Res.pure_eq, Res.ok.injEq, Prod.mk.injEq] at e2
        obtain ⟨rfl, rfl⟩ := e2
        exact ⟨a1, a2⟩
      · obtain ⟨b1, b2⟩ := ih a1 a3 e2
        exact ⟨b1, b2.trans a2⟩

/-- The file's numbers are right in a grown archive, too. -/
theorem file_grown {max N M : Nat} {s s' : Nat → Option Silo} (hg : Grown s s') (hNM : N ≤ M) {file : Option Bytes} {c0 : Cache} (h0 : GoodCache max N s c0)
    (h : ∀ c, GoodCache max N s c → GoodCache max N s (readCache file c)) : ∀ c, GoodCache max M s' c → GoodCache max M s' (readCache file c) := by
  intro c hc
  cases file with
  | none => exact hc
  | some b =>
    by_cases hb : (b.take 8).length = 8
    · have := h c0 h0
      simp only [readCache, if_pos hb] at this ⊢
      exact goodCache_grown hg hNM this
    · simp only [readCache, if_neg hb]
      exact hc

theorem install_tight {env : Env} {w w' : World} {sl : Sl} {segd : Bool} {id : Bytes} {rid : Option Bytes} {N : Nat} (h : Tight env.max w N) (hno : sl.no = N)
    (hlt : N + 1 < 2 ^ 32) (e : install env w sl segd id rid = .ok w') : Tight env.max w' (N + 1) ∧ w'.holds = upd w.holds N false := by
  unfold install at e
  simp only [Res.bind_eq_ok, Res.check_eq_ok, exists_const, Res.pure_eq, Res.ok.injEq] at e
  obtain ⟨file, -, fl, -, d, -, d2, -, e5, e6⟩ := e
  have e5 := of_decide_eq_true e5
  have hg : Grown w.silos (upd w.silos sl.no (some { data := file, writable := true })) := grown_upd (fun g hg => by rw [e5] at hg; cases hg)
  obtain ⟨w1, hw1⟩ : ∃ w1 : World, w1 = { w with dir := d2, silos := upd w.silos sl.no (some { data := file, writable := true }) } := ⟨_, rfl⟩
  have t1 : Tight env.max w1 (N + 1) := by
    rw [hw1]
    refine ⟨?_, hlt, goodCache_grown hg (by omega) h.cache, file_grown hg (by omega) h.cache h.file⟩
    intro n
    simp only [upd, hno]
    split
    · rename_i hn
      rw [hn]
      simp
    · rename_i hn
      rw [h.silos n]
      omega
  have g1 := (good_bumpNon (sn := N) t1.cache hlt (by omega)).1
  have t2 := putCache_tight t1 g1
  obtain ⟨p1, -⟩ := putCache_holds w1 (bumpNon N w1.cache)
  have hc : w1.cache = w.cache := by rw [hw1]
  have hh : w1.holds = w.holds := by rw [hw1]
  rw [← hw1, hno, ← hc] at e6
  rw [← e6]
  refine ⟨⟨t2.silos, t2.few, t2.cache, t2.file⟩, ?_⟩
  unfold abandon
  rw [hno]
  simp only
  rw [p1, hh]

theorem wsiloCommit_tight {env : Env} {w w' : World} {sl : Sl} {segd : Bool} {id : Bytes} {rid : Option Bytes} {N : Nat} (h : Tight env.max w N) (hno : sl.no = N)
    (hlt : N + 1 < 2 ^ 32) (e : wsiloCommit env w sl segd id rid = .ok w') :
    (Tight env.max w' (N + 1) ∨ segd = false ∧ Tight env.max w' N) ∧ w'.holds = upd w.holds N false := by
  unfold wsiloCommit at e
  split at e
  · rename_i hs
    simp only [Res.bind_eq_ok] at e
    obtain ⟨⟨w1, r⟩, e1, e2⟩ := e
    obtain ⟨a1, a2⟩ := appendLoop_tight _ h (Nat.le_refl _) e1
    simp only at e2
    split at e2
    · simp only [Res.pure_eq, Res.ok.injEq] at e2
      rw [← e2]
      refine ⟨.inr ⟨hs.1, ⟨a1.silos, a1.few, a1.cache, a1.file⟩⟩, ?_⟩
      unfold abandon
      rw [hno]
      simp only [a2]
    · obtain ⟨b1, b2⟩ := install_tight a1 hno hlt e2
      exact ⟨.inl b1, by rw [b2, a2]⟩
  · obtain ⟨b1, b2⟩ := install_tight h hno hlt e
    exact ⟨.inl b1, b2⟩

theorem commitSegs_tight {env : Env} {fid : Bytes} {size : Nat} (ss : List Seg) : ∀ {w w' : World} {N : Nat}, Tight env.max w N →
    ss.map (·.silo.no) = List.range' N ss.length → (∀ s ∈ ss, s.silo.no + 1 < 2 ^ 32) → commitSegs env fid size ss w = .ok w' →
    Tight env.max w' (N + ss.length) ∧ ∀ n, w'.holds n = if n ∈ ss.map (·.silo.no) then false else w.holds n := by
  induction ss with
  | nil => intro w w' N h _ _ e; cases e; exact ⟨h, fun n => by simp⟩
  | cons s ss ih =>
    intro w w' N h hn hlt e
    rw [commitSegs] at e
    simp only [Res.bind_eq_ok] at e
    obtain ⟨h1, -, h2, -, w1, e1, e2⟩ := e
    rw [List.map_cons, List.length_cons, List.range'_succ, List.cons.injEq] at hn
    have hs := hlt s (by simp)
    rw [hn.1] at hs
    obtain ⟨a1, a2⟩ := wsiloCommit_tight (sl := { s.silo with hd := h2 }) h hn.1 hs e1
    have a1 := a1.resolve_right (fun h => by cases h.1)
    obtain ⟨b1, b2⟩ := ih a1 hn.2 (fun t ht => hlt t (by simp [ht])) e2
    refine ⟨by rw [List.length_cons, Nat.add_comm ss.length 1, ← Nat.add_assoc]; exact b1, fun n => ?_⟩
    rw [b2, a2]
    simp only [List.map_cons, List.mem_cons, upd, hn.1]
    by_cases hm : n ∈ ss.map (·.silo.no)
    · simp [hm]
    · by_cases hnN : n = N <;> simp [hm, hnN]

/-- Ascending numbers from `N` on without a gap. -/
theorem range_of_closed (l : List Nat) : ∀ (N : Nat), l.Pairwise (· < ·) → (∀ n ∈ l, N ≤ n) → (∀ n ∈ l, ∀ k, N ≤ k → k ≤ n → k ∈ l) →
    l = List.range' N l.length := by
  induction l with
  | nil => intro N _ _ _; rfl
  | cons a l ih =>
    intro N hp hge hcl
    rw [List.pairwise_cons] at hp
    have ha : a = N := by
      have h1 := hge a (by simp)
      have h2 := hcl a (by simp) N (Nat.le_refl _) h1
      rcases List.mem_cons.1 h2 with h2 | h2
      · exact h2.symm
      · have := hp.1 N h2
        omega
    subst ha
    rw [List.length_cons, List.range'_succ]
    congr 1
    refine ih (a + 1) hp.2 (fun n hn => hp.1 n hn) (fun n hn k h1 h2 => ?_)
    rcases List.mem_cons.1 (hcl n (List.mem_cons_of_mem _ hn) k (by omega) h2) with h | h
    · omega
    · exact h

/-- Storing an object keeps the silos without a gap, and leaves no hold file. -/
theorem store_tight {σ : Type} {env : Env} {D : Deflater σ} (hz : Zlib D) (he : EnvOk env) {fuel : Nat} {w w' : World} {h : Hdr} {ident : Option Bytes}
    {cs : List Bytes} (hc : GoodInput env cs) {uri : Bytes} {N : Nat} (ht : Tight env.max w N) (hh : ∀ n, w.holds n = false)
    (e : storeObj env D fuel w h ident cs = .ok (w', uri)) : ∃ M, N ≤ M ∧ Tight env.max w' M ∧ ∀ n, w'.holds n = false := by
  unfold storeObj segjobCommit at e
  simp only [Res.bind_eq_ok] at e
  obtain ⟨sj, e0, ⟨w1, sj1⟩, e1, ⟨w2, sj2⟩, e2, e3⟩ := e
  simp only at e2 e3
  obtain ⟨a1, -, -, -, a5, a6⟩ := fed_inv hz he.max hc.1 hc.2.1 e0 e1 e2
  have hn : nos sj2 = sj2.segs.map (·.silo.no) := by unfold nos; rw [a5]; simp [curNo]
  rw [hn] at a6
  have hown := a1.owned
  have hris := a1.rising
  rw [a5] at hown hris
  simp only [curNo, Option.map_none, Option.toList_none, List.append_nil] at hown hris
  -- the cached numbers are still right
  have hfile : GoodCache env.max N w.silos (readCache w.cacheFile w.cache) := ht.file _ ht.cache
  have hcache : GoodCache env.max N w2.silos w2.cache := by
    rw [a6.silos]
    rcases a6.cache with h | h <;> rw [h]
    · exact ht.cache
    · exact hfile
  have t2 : Tight env.max w2 N := ⟨by rw [a6.silos]; exact ht.silos, ht.few, hcache, by rw [a6.silos, a6.cacheFile]; exact ht.file⟩
  -- the numbers taken
  have hge : ∀ n ∈ sj2.segs.map (·.silo.no), N ≤ n := by
    intro n hn
    have h1 := (hown n hn).1
    rcases Nat.lt_or_ge n N with h | h
    · exact absurd h1 ((t2.silos n).2 h)
    · exact h
  have hheld : ∀ n, w2.holds n = true → n ∈ sj2.segs.map (·.silo.no) := by
    intro n h1
    by_cases hm : n ∈ sj2.segs.map (·.silo.no)
    · exact hm
    · rw [a6.holds n hm, hh] at h1
      cases h1
  have hcl : ∀ n ∈ sj2.segs.map (·.silo.no), ∀ k, N ≤ k → k ≤ n → k ∈ sj2.segs.map (·.silo.no) := by
    intro n hn k h1 h2
    have hfn := (t2.file _ t2.cache).non
    rcases hris.2 n hn k (by omega) h2 with h3 | h3
    · have := (t2.silos k).1 h3
      omega
    · exact hheld k h3
  have hrange := range_of_closed _ N hris.1 hge hcl
  rw [List.length_map] at hrange
  have hlt : ∀ s ∈ sj2.segs, s.silo.no + 1 < 2 ^ 32 := by
    intro s hs
    obtain ⟨b, hd⟩ := segsDone_mem _ a1.segs s hs
    obtain ⟨h0, gz, hb, -⟩ := hd.state
    exact hb.no
  unfold commitJob at e3
  simp only [Res.bind_eq_ok, Res.check_eq_ok, exists_const] at e3
  obtain ⟨-, e3⟩ := e3
  cases hsegs : sj2.segs with
  | nil => rw [hsegs] at e3; cases e3
  | cons s ss =>
    rw [hsegs] at e3 hrange hheld hlt
    simp only [Res.bind_eq_ok] at e3
    obtain ⟨s', e4, uri', -, g, -, e5⟩ := e3
    have hno : s'.silo.no = s.silo.no := by
      by_cases h0 : ss = []
      · rw [if_pos h0] at e4
        cases e4
        rfl
      · rw [if_neg h0] at e4
        unfold firstId at e4
        simp only [Res.bind_eq_ok, Res.pure_eq, Res.ok.injEq] at e4
        obtain ⟨_, -, _, -, rfl⟩ := e4
        rfl
    have hmap : (s' :: ss).map (·.silo.no) = (s :: ss).map (·.silo.no) := by simp [hno]
    cases g with
    | job gj =>
      simp only [Res.pure_eq, Res.ok.injEq, Prod.mk.injEq] at e5
      obtain ⟨rfl, -⟩ := e5
      obtain ⟨d1, -, d3, d4⟩ := destroy_same (s' :: ss) w2
      have d5 : ∀ (ss : List Seg) (w : World), (destroy w ss).cache = w.cache := by
        intro ss
        induction ss with
        | nil => intro w; rfl
        | cons s ss ih => intro w; exact (ih (abandon w s.silo)).trans rfl
      refine ⟨N, Nat.le_refl _, ⟨by rw [d1]; exact t2.silos, t2.few, by rw [d1, d5]; exact t2.cache, by rw [d1, d3]; exact t2.file⟩, fun n => ?_⟩
      rw [d4, hmap]
      split
      · rfl
      · rename_i hm
        cases hv : w2.holds n with
        | false => rfl
        | true => exact absurd (hheld n hv) hm
    | error er =>
      simp only [Res.bind_eq_ok, Res.pure_eq, Res.ok.injEq, Prod.mk.injEq] at e5
      obtain ⟨w3, e5, rfl, -⟩ := e5
      by_cases h0 : ss = []
      · rw [if_pos h0] at e5
        rw [h0] at hrange hheld hlt
        simp only [List.map_cons, List.map_nil, List.length_cons, List.length_nil, List.range'_succ, List.cons.injEq] at hrange
        have hs := hlt s (by simp)
        rw [hrange.1] at hs
        obtain ⟨b1, b2⟩ := wsiloCommit_tight t2 (hno.trans hrange.1) hs e5
        have hfree : ∀ n, w3.holds n = false := by
          intro n
          rw [b2]
          unfold upd
          split
          · rfl
          · rename_i hm
            cases hv : w2.holds n with
            | false => rfl
            | true =>
              have := hheld n hv
              simp only [List.map_cons, List.map_nil, List.mem_singleton] at this
              exact absurd (this.trans hrange.1) hm
        rcases b1 with b1 | ⟨-, b1⟩
        · exact ⟨N + 1, by omega, b1, hfree⟩
        · exact ⟨N, Nat.le_refl _, b1, hfree⟩
      · rw [if_neg h0] at e5
        obtain ⟨b1, b2⟩ := commitSegs_tight _ t2 (by rw [hmap, hrange]; rfl)
          (fun t ht => by
            rcases List.mem_cons.1 ht with rfl | ht
            · rw [hno]; exact hlt s (by simp)
            · exact hlt t (by simp [ht])) e5
        refine ⟨N + (s' :: ss).length, by omega, b1, fun n => ?_⟩
        rw [b2, hmap]
        split
        · rfl
        · rename_i hm
          cases hv : w2.holds n with
          | false => rfl
          | true => exact absurd (hheld n hv) hm

/-! ### Histories -/

/-- What may happen to an archive when all goes well: objects are stored, if the header and the given ID are as `P` says; the index is
housekept; silos are write-protected; a new process begins, and the cache file is lost. -/
inductive Tidy {σ : Type} (env : Env) (D : Deflater σ) (P : Hdr → Option Bytes → Prop) : World → World → Prop where
  | refl (w : World) : Tidy env D P w w
  | store {w w1 w2 : World} {fuel : Nat} {h : Hdr} {ident : Option Bytes} {cs : List Bytes} {uri : Bytes} :
      Tidy env D P w w1 → GoodJob env h → P h ident → GoodInput env cs → storeObj env D fuel w1 h ident cs = .ok (w2, uri) → Tidy env D P w w2
  | housekeep {w w1 : World} {n : Nat} {d : Dir} : Tidy env D P w w1 → n % 32 = 0 → 0 < n → idxResort n w1.dir = .ok d →
      Tidy env D P w { w1 with dir := d }
  | protect {w w1 w2 : World} : Tidy env D P w w1 → w2.dir = w1.dir → (∀ n, (w2.silos n).map (·.data) = (w1.silos n).map (·.data)) →
      w2.holds = w1.holds → w2.cache = w1.cache → w2.cacheFile = w1.cacheFile → Tidy env D P w w2
  | process {w w1 : World} : Tidy env D P w w1 → Tidy env D P w { w1 with cache := ⟨0, 0⟩ }
  | lose {w w1 : World} : Tidy env D P w w1 → Tidy env D P w { w1 with cacheFile := none }

/-- C56: after any such history that began with an empty archive, the silos are those with the numbers below some `N`, no hold file is left,
and the cached numbers are right, in memory and in the file: all silos below the one exist, and all silos below the other have less
space left than there are silos. -/
theorem C56_no_gaps {σ : Type} {env : Env} {D : Deflater σ} (hz : Zlib D) (he : EnvOk env) {P : Hdr → Option Bytes → Prop} {w0 w : World}
    (hs0 : ∀ n, w0.silos n = none) (hh0 : ∀ n, w0.holds n = false) (hc0 : w0.cache = ⟨0, 0⟩) (hf0 : w0.cacheFile = none) (hl : Tidy env D P w0 w) :
    ∃ N, (∀ n, w.silos n ≠ none ↔ n < N) ∧ (∀ n, w.holds n = false) ∧ GoodCache env.max N w.silos w.cache ∧
      GoodCache env.max N w.silos (readCache w.cacheFile w.cache) := by
  have zero : ∀ (N : Nat) (s : Nat → Option Silo), GoodCache env.max N s ⟨0, 0⟩ := fun N s => ⟨Nat.zero_le _, Nat.le_refl _, fun n h => absurd h (Nat.not_lt_zero n)⟩
  have key : ∃ N, Tight env.max w N ∧ ∀ n, w.holds n = false := by
    induction hl with
    | refl =>
      refine ⟨0, ⟨fun n => by rw [hs0]; simp, by decide, by rw [hc0]; exact zero _ _, fun c h => by rw [hf0]; exact h⟩, hh0⟩
    | store _ _ _ hc e ih =>
      obtain ⟨N, h1, h2⟩ := ih
      obtain ⟨M, -, h3⟩ := store_tight hz he hc h1 h2 e
      exact ⟨M, h3⟩
    | housekeep _ _ _ _ ih =>
      obtain ⟨N, h1, h2⟩ := ih
      exact ⟨N, ⟨h1.silos, h1.few, h1.cache, h1.file⟩, h2⟩
    | protect _ _ hs hh hc hf ih =>
      rename_i w1 w2 _ _
      obtain ⟨N, h1, h2⟩ := ih
      refine ⟨N, ⟨fun n => ?_, h1.few, by rw [hc]; exact goodCache_congr hs h1.cache, fun c h => ?_⟩, fun n => by rw [hh]; exact h2 n⟩
      · have h3 : (w2.silos n = none) ↔ (w1.silos n = none) := by
          have := hs n
          cases ha : w2.silos n <;> cases hb : w1.silos n <;> simp_all
        rw [ne_eq, h3]
        exact h1.silos n
      · rw [hf]
        exact goodCache_congr hs (h1.file c (goodCache_congr (fun n => (hs n).symm) h))
    | process _ ih =>
      obtain ⟨N, h1, h2⟩ := ih
      exact ⟨N, ⟨h1.silos, h1.few, zero _ _, h1.file⟩, h2⟩
    | lose _ ih =>
      obtain ⟨N, h1, h2⟩ := ih
      exact ⟨N, ⟨h1.silos, h1.few, h1.cache, fun c h => h⟩, h2⟩
  obtain ⟨N, h1, h2⟩ := key
  exact ⟨N, h1.silos, h2, h1.cache, h1.file _ h1.cache⟩

/-- Such a history is one of those in C40 and C54. -/
theorem tidy_stores {σ : Type} {env : Env} {D : Deflater σ} {g : Bool} {P : Hdr → Option Bytes → Prop}
    (hP : ∀ h i, P h i → (headerGet h b!"WARC-Type" = some b!"resource" ∨ headerGet h b!"WARC-Type" = some b!"metadata") ∧
      (i ≠ none → g = true ∧ headerGet h b!"WARC-Type" = some b!"metadata")) {w0 w : World} (hl : Tidy env D P w0 w) : Stores env D g w0 w := by
  induction hl with
  | refl => exact .refl _
  | store _ hj hp hc e ih => exact .store ih hj (hP _ _ hp).1 hc (hP _ _ hp).2 e
  | housekeep _ h1 h2 e ih => exact .housekeep ih h1 h2 e
  | protect _ h1 h2 _ _ _ ih => exact .other ih h1 h2
  | process _ ih => exact .other ih rfl (fun _ => rfl)
  | lose _ ih => exact .other ih rfl (fun _ => rfl)

/-- C54, C56: the audit sees every record and is content, after any such history of storing resources and metadata, if no two segmented objects have the
same ID. -/
theorem C54_tidy_partial {σ : Type} {env : Env} {D : Deflater σ} (hz : Zlib D) (he : EnvOk env) {w0 w : World} (hw0 : w0.dir = {})
    (hs0 : ∀ n, w0.silos n = none) (hh0 : ∀ n, w0.holds n = false) (hc0 : w0.cache = ⟨0, 0⟩) (hf0 : w0.cacheFile = none)
    (hl : Tidy env D (fun h i => (headerGet h b!"WARC-Type" = some b!"resource" ∨ headerGet h b!"WARC-Type" = some b!"metadata") ∧ i = none) w0 w)
    {cut : Bytes → List Bytes} (hcut : ∀ b, (cut b).flatten = b) (ign : Bool) :
    ∃ ops A N, ArchInv env w ops A ∧ (∀ n, w.silos n ≠ none ↔ n < N) ∧ (FirstsDiffer A → A.length < 2 ^ 31 → ∀ fuel, N < fuel → A.length < fuel →
      (∀ n f, w.silos n = some f → f.data.length < fuel) →
      ∃ l os, Audit.mainAudit env.ps env.pfx cut env.sha env.idSize ign w.silos fuel = .ok (some (l, os, [])) ∧ (∀ x ∈ l, x.2.1 = []) ∧
        (∀ o ∈ os, ∃ rest, o = .object [] rest) ∧ (l.map fun x => (x.1.hdr, x.1.content)).Perm (A.map fun x => (x.hdr, x.record.data))) := by
  obtain ⟨N, hN, -⟩ := C56_no_gaps hz he hs0 hh0 hc0 hf0 hl
  have hst : Stores env D false w0 w := tidy_stores (fun h i hp => ⟨hp.1, fun hi => absurd hp.2 hi⟩) hl
  obtain ⟨ops, A, h1, h2⟩ := C54_clean_audit_partial hz he hw0 hs0 hst hN hcut ign
  exact ⟨ops, A, N, h1, hN, h2⟩

end Verif.Props
