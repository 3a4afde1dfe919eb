/-
Looking up in the index of an archive delivers each record that matches exactly once.
-/
import Verif.Props.Sound

namespace Verif.Props
open Verif Header Gzip Ident Index Wsilo Segjob Getjob Spec Rsilo Inflate

theorem perm_unmap {α β : Type} {f : α → β} {l m : List β} (h : l.Perm m) : ∀ B : List α, m = B.map f → ∃ L : List α, L.Perm B ∧ L.map f = l := by
  induction h with
  | nil =>
    intro B hB
    refine ⟨[], ?_, rfl⟩
    rw [List.map_eq_nil_iff.1 hB.symm]
  | cons x _ ih =>
    intro B hB
    obtain ⟨b, B', rfl, rfl, h2⟩ := List.map_eq_cons_iff.1 hB.symm
    obtain ⟨L, h3, h4⟩ := ih B' h2.symm
    exact ⟨b :: L, h3.cons b, by rw [List.map_cons, h4]⟩
  | swap x y l =>
    intro B hB
    obtain ⟨a, B1, rfl, rfl, h2⟩ := List.map_eq_cons_iff.1 hB.symm
    obtain ⟨b, B2, rfl, rfl, rfl⟩ := List.map_eq_cons_iff.1 h2
    exact ⟨b :: a :: B2, List.Perm.swap a b B2, rfl⟩
  | trans _ _ ih1 ih2 =>
    intro B hB
    obtain ⟨L, h1, h2⟩ := ih2 B hB
    obtain ⟨L', h3, h4⟩ := ih1 L h2.symm
    exact ⟨L', h3.trans h1, h4⟩

theorem offsets_ge (rs : List Rec) : ∀ (o n : Nat), n ∈ offsets o rs → o ≤ n := by
  induction rs with
  | nil => intro o n h; cases h
  | cons r rs ih =>
    intro o n h
    rcases List.mem_cons.1 h with rfl | h
    · omega
    · have := ih _ _ h
      omega

theorem offsets_nodup (rs : List Rec) (h : ∀ r ∈ rs, 0 < r.bytes.length) : ∀ o, (offsets o rs).Nodup := by
  induction rs with
  | nil => intro o; exact .nil
  | cons r rs ih =>
    intro o
    rw [offsets, List.nodup_cons]
    refine ⟨?_, ih (fun r hr => h r (by simp [hr])) _⟩
    intro hm
    have := offsets_ge _ _ _ hm
    have := h r (by simp)
    omega

theorem nodup_by {α : Type} [DecidableEq α] (g : α → Nat) (l : List α) (h : ∀ n, (l.filter (fun a => g a = n)).Nodup) : l.Nodup := by
  rw [List.nodup_iff_count]
  intro a
  have := List.nodup_iff_count.1 (h (g a)) a
  rwa [List.count_filter (by simp)] at this

/-- Each record has an index entry of its own. -/
theorem entries_nodup {env : Env} {w : World} {ops : List IdxOp} {A : List Item} (ha : ArchInv env w ops A) (hl : Layout w.silos A) :
    (A.map (·.entry)).Nodup := by
  apply nodup_by (fun e => e.silo)
  intro n
  rw [List.filter_map]
  have e : ((fun a : Entry => decide (a.silo = n)) ∘ fun x : Item => x.entry) = fun x : Item => decide (x.entry.silo = n) := rfl
  rw [e]
  by_cases hn : (A.filter fun x => decide (x.entry.silo = n)) = []
  · rw [hn]; exact .nil
  · obtain ⟨x, hx⟩ := List.exists_mem_of_ne_nil _ hn
    rw [List.mem_filter] at hx
    obtain ⟨hx, hxn⟩ := hx
    have hxn := of_decide_eq_true hxn
    obtain ⟨⟨f, pre, post, h1, -⟩, -⟩ := ha.there x hx
    rw [hxn] at h1
    obtain ⟨X, p1, -, p3⟩ := hl n f h1
    rw [← (p1.map (·.entry)).nodup_iff]
    have h0 : ∀ r ∈ X.map (·.record), 0 < r.bytes.length := by
      intro r hr
      obtain ⟨y, hy, rfl⟩ := List.mem_map.1 hr
      have hy := (List.mem_filter.1 ((p1.mem_iff).1 hy)).1
      have := member_length (ha.there y hy).2.1.head
      simp only [Rec.bytes, List.length_append]
      omega
    have := offsets_nodup _ h0 0
    rw [← p3] at this
    have e2 : X.map (·.entry.off) = (X.map (·.entry)).map (·.off) := by rw [List.map_map]; rfl
    rw [e2] at this
    exact List.Nodup.of_map _ this

/-- The lookup of a key works: the search is safe (C03), and the key has at least as many bits as the table of the sorted file uses. -/
def Seekable (d : Dir) (k : Bytes) : Prop :=
  ∀ F, d.sorted = some F → SeekSafe F k ∧ (idKey k / 2 ^ (64 - tblBits F) = 0 ∨ tblBits F ≤ 8 * (min k.length 24 / 2))

/-- Looking up a key (or none) delivers each record whose key starts with it exactly once. -/
theorem arch_lookup {env : Env} {w : World} {ops : List IdxOp} {A : List Item} (ha : ArchInv env w ops A) (hl : Layout w.silos A) (hfew : A.length < 2 ^ 31)
    {kp : Option Bytes} (hk : ∀ c ∈ kp.getD [], isHex c = true) (hs : Seekable w.dir (kp.getD [])) :
    ∃ L : List Item, L.Perm (A.filter fun x => Matches (kp.getD []) x.entry) ∧ ∀ (σ : Type) (f : σ → Entry → σ × Int) (s : σ), ∃ r, idxIter w.dir kp f s = .ok r ∧
      r.1 = (Spec.deliver f (L.map (·.entry)) s).1 := by
  have hlen : (inserts ops).length = A.length := by
    have := congrArg List.length ha.entries
    simpa using this
  obtain ⟨d, rs, as, hs', h1, h2, -, h4, h5⟩ := reach_good ops ha.valid ((inserts ops).length + 2 ^ 26) (by omega) (by omega)
  rw [ha.dir] at h1
  cases h1
  have hB : ∀ F, w.dir.sorted = some F → tblNrec F < 2 ^ 32 := by
    intro F hF
    have := h2.sorted
    rw [hF] at this
    obtain ⟨bp0, hi, hB⟩ := this
    obtain ⟨f1, f2, -, -, -, -⟩ := hi.facts
    rw [hi.tbl.2]
    omega
  have hnd := entries_nodup ha hl
  have hperm : ((rs ++ as ++ hs').map entryOf).Perm (A.map (·.entry)) := by
    have hsub : A.map (·.entry) ⊆ (rs ++ as ++ hs').map entryOf := by
      intro e he
      rw [h4]
      rw [← ha.entries] at he
      obtain ⟨i, h1, h2⟩ := List.mem_map.1 he
      exact ⟨i, h1, h2⟩
    have := (List.subperm_of_subset hnd hsub).perm_of_length_le (by
      simp only [List.length_map, List.length_append]
      omega)
    exact this.symm
  have hf := hperm.filter (Matches (kp.getD []))
  obtain ⟨L, l1, l2⟩ := perm_unmap hf (A.filter fun x => Matches (kp.getD []) x.entry) (by rw [List.filter_map]; rfl)
  refine ⟨L, l1, ?_⟩
  intro σ f s
  obtain ⟨⟨a, b⟩, r1, r2, -⟩ := idxIter_exact w.dir rs as hs' h2 (by omega) kp (by simpa using hk) hB hs f s
  exact ⟨(a, b), r1, by rw [r2, ← l2]⟩

end Verif.Props
