/-
The invariant for property C62.
-/
import Verif.Proofs.StowData

namespace Verif.StowData
open Verif Stow Props
open _root_.Verif.Rsilo (cstr)

/-- What is assumed: IDs have 16 to 64 digits; the prefix of IDs ends in a slash; SHA256 gives 64 characters other than slash and NUL; mtree gives a
text that is not empty and lists files with their SHA256; messages fit the buffers. -/
structure CfgOk (g : Cfg) (files : List Item) : Prop where
  n1 : 16 ≤ g.n
  n2 : g.n ≤ 64
  max1 : 0 < g.max
  max2 : g.max < 2 ^ 32
  pfx : ∃ p, g.pfx = p ++ [47] ∧ (0 : UInt8) ∉ p
  len : g.pfx.length + 64 < 1024
  sha : ∀ c, (g.sha c).length = 64 ∧ (47 : UInt8) ∉ g.sha c ∧ (0 : UInt8) ∉ g.sha c
  mid : ∀ r b, (g.mid r b).length ≤ 64
  files : ∀ x ∈ files, x.isFile = true ∧ x.digest.length = 64
  text : g.text ≠ []

/-- The item for the output of mtree. -/
def treeItem (g : Cfg) : Item := ⟨false, [], g.sha g.text⟩

/-- The end mark. -/
def endItem : Item := ⟨false, [], []⟩

/-- All items, in order. -/
def items (g : Cfg) (files : List Item) : List Item := files ++ [treeItem g, endItem]

/-- The invariant of the filter exchange. -/
def Base (g : Cfg) (files : List Item) (k0 : Bytes → Bool) (u : Stow.Sys) : Prop :=
  (∃ R A B, Inv g.n g.max (items g files) u R A B) ∧ LogOk k0 u

theorem asked_len {g : Cfg} {files : List Item} (hg : CfgOk g files) : ∀ x ∈ asked files (g.sha g.text), x.digest.length = 64 := by
  intro x hx
  rcases List.mem_append.1 hx with h | h
  · exact (hg.files x h).2
  · rw [List.mem_singleton.1 h]; exact (hg.sha _).1

theorem base_step {g : Cfg} {files : List Item} (hg : CfgOk g files) {k0 : Bytes → Bool} {u : Stow.Sys} (h : Base g files k0 u) {e : Stow.Ev}
    {r : Res Stow.Sys} (hs : Stow.step g.n g.max u e = some r) : ∃ u', r = .ok u' ∧ Base g files k0 u' := by
  obtain ⟨⟨R, A, B, hi⟩, hl⟩ := h
  obtain ⟨u', R', A', B', rfl, hi'⟩ := inv_step hg.n1 hg.n2 hg.max1 hg.max2 (endLast_start (asked_len hg)) hi hs
  exact ⟨u', rfl, ⟨R', A', B', hi'⟩, logOk_step hl hs⟩

theorem base_ok {g : Cfg} {files : List Item} (hg : CfgOk g files) {k0 : Bytes → Bool} {u u' : Stow.Sys} (h : Base g files k0 u) {e : Stow.Ev}
    (hs : Stow.step g.n g.max u e = some (.ok u')) : Base g files k0 u' := by
  obtain ⟨v, h1, h2⟩ := base_step hg h hs
  cases h1
  exact h2

theorem base_info {g : Cfg} {files : List Item} {k0 : Bytes → Bool} {u : Stow.Sys} (h : Base g files k0 u) (i : Option Item) :
    Base g files k0 { u with cl := { u.cl with info := i } } := by
  obtain ⟨⟨R, A, B, hi⟩, hl⟩ := h
  exact ⟨⟨R, A, B, ⟨hi.all, hi.wait, hi.get, hi.flushed, hi.expl, hi.pres, hi.ids, hi.log, hi.idSize, hi.fin, hi.pend, hi.busy, hi.job⟩⟩, hl⟩

theorem perm_split {α : Type} (R : List (α × Bool)) :
    ((R.filter (·.2)).map (·.1) ++ (R.filter (fun a => !a.2)).map (·.1)).Perm (R.map (·.1)) := by
  induction R with
  | nil => exact .refl _
  | cons a R ih =>
    cases ha : a.2 with
    | true => simp only [List.filter_cons, ha, if_true, List.map_cons, List.cons_append, Bool.not_true, Bool.false_eq_true, if_false]; exact ih.cons _
    | false =>
      simp only [List.filter_cons, ha, if_true, List.map_cons, Bool.not_false, Bool.false_eq_true, if_false]
      exact List.perm_middle.trans (ih.cons _)

/-- The items, as far as the client's lists go. -/
theorem base_items {g : Cfg} {files : List Item} {k0 : Bytes → Bool} {u : Stow.Sys} (h : Base g files k0 u) :
    ∃ V M, items g files = V ++ (M ++ u.cl.subj) ∧ (u.cl.get ++ u.cl.flushed).Perm V ∧ u.cl.get.Sublist V ∧ (∀ x ∈ u.cl.get, x.digest ≠ []) := by
  obtain ⟨⟨R, A, B, hi⟩, hl⟩ := h
  refine ⟨R.map (·.1), A.map (·.1) ++ B, ?_, ?_, ?_, ?_⟩
  · rw [hi.all]; simp
  · rw [hi.get, hi.flushed]; exact perm_split R
  · rw [hi.get]; exact (List.filter_sublist).map _
  · intro x hx he
    rw [hi.get] at hx
    obtain ⟨a, ha, rfl⟩ := List.mem_map.1 hx
    obtain ⟨h1, h2⟩ := List.mem_filter.1 ha
    have := hi.fin a (by simp [h1]) he
    rw [this] at h2
    cases h2

theorem base_flushed {g : Cfg} {files : List Item} {k0 : Bytes → Bool} {u : Stow.Sys} (h : Base g files k0 u) :
    ∀ x ∈ u.cl.flushed, x.digest ≠ [] → u.known (x.digest.take g.n) = true := by
  obtain ⟨⟨R, A, B, hi⟩, hl⟩ := h
  intro x hx hne
  rw [hi.flushed] at hx
  obtain ⟨a, ha, rfl⟩ := List.mem_map.1 hx
  obtain ⟨h1, h2⟩ := List.mem_filter.1 ha
  refine (hl.2 (a.1.digest.take g.n, a.2) ?_).2 (by simpa using h2)
  rw [hi.log]
  exact List.mem_map.2 ⟨a, List.mem_filter.2 ⟨by simp [h1], by simpa using hne⟩, rfl⟩

theorem base_busy {g : Cfg} {files : List Item} {k0 : Bytes → Bool} {u : Stow.Sys} (h : Base g files k0 u) (hj : u.sv.job = none) : u.sv.queue = [] := by
  obtain ⟨⟨R, A, B, hi⟩, hl⟩ := h
  cases hq : u.sv.queue with
  | nil => rfl
  | cons a l => exact absurd hj (hi.busy (by rw [hq]; simp))

theorem tree_ne {g : Cfg} {files : List Item} (hg : CfgOk g files) : (treeItem g).digest ≠ [] := by
  intro h
  have := (hg.sha g.text).1
  rw [show g.sha g.text = [] from h] at this
  cases this

theorem tree_ne_end {g : Cfg} {files : List Item} (hg : CfgOk g files) : treeItem g ≠ endItem := fun h => tree_ne hg (by rw [h]; rfl)

theorem tree_file {g : Cfg} {files : List Item} (hg : CfgOk g files) : treeItem g ∉ files := by
  intro h
  have := (hg.files _ h).1
  cases this

/-- Only files and the output of mtree are requested. -/
theorem get_item {g : Cfg} {files : List Item} {k0 : Bytes → Bool} {u : Stow.Sys} (hg : CfgOk g files) (h : Base g files k0 u) {x : Item} (hx : x ∈ u.cl.get) :
    (x.isFile = true ∧ x ∈ files) ∨ x = treeItem g := by
  obtain ⟨V, M, h1, h2, h3, h4⟩ := base_items h
  have : x ∈ items g files := by rw [h1]; exact List.mem_append_left _ (h3.subset hx)
  rcases List.mem_append.1 this with h | h
  · exact .inl ⟨(hg.files x h).1, h⟩
  · rcases List.mem_cons.1 h with h | h
    · exact .inr h
    · rw [List.mem_singleton.1 h] at hx
      exact absurd rfl (h4 _ hx)

/-- A prefix of all items with the output of mtree in it. -/
theorem prefix_tree {g : Cfg} {files : List Item} (hg : CfgOk g files) {V W : List Item} (h : items g files = V ++ W) (ht : treeItem g ∈ V) :
    (V = files ++ [treeItem g] ∧ W = [endItem]) ∨ (V = files ++ [treeItem g, endItem] ∧ W = []) := by
  unfold items at h
  rcases List.append_eq_append_iff.1 h with ⟨a, h1, h2⟩ | ⟨a, h1, h2⟩
  · cases a with
    | nil =>
      rw [List.append_nil] at h1
      rw [h1] at ht
      exact absurd ht (tree_file hg)
    | cons x a =>
      simp only [List.cons_append, List.cons.injEq] at h2
      obtain ⟨rfl, h2⟩ := h2
      cases a with
      | nil => exact .inl ⟨h1, h2.symm⟩
      | cons y a =>
        simp only [List.cons_append, List.cons.injEq] at h2
        obtain ⟨rfl, h2⟩ := h2
        obtain ⟨rfl, rfl⟩ := List.append_eq_nil_iff.1 h2.symm
        exact .inr ⟨h1, rfl⟩
  · exact absurd (by rw [h1]; exact List.mem_append_left _ ht) (tree_file hg)

/-- If the output of mtree has been requested, it was the last one. -/
theorem get_tree {g : Cfg} {files : List Item} {k0 : Bytes → Bool} {u : Stow.Sys} (hg : CfgOk g files) (h : Base g files k0 u) {X Y : List Item}
    (hx : u.cl.get = X ++ treeItem g :: Y) : Y = [] := by
  obtain ⟨V, M, h1, h2, h3, h4⟩ := base_items h
  have ht : treeItem g ∈ V := h3.subset (by rw [hx]; simp)
  have hs : (X ++ treeItem g :: Y).Sublist (files ++ [treeItem g, endItem]) := by
    rw [← hx]
    refine h3.trans ?_
    rcases prefix_tree hg h1 ht with ⟨hv, -⟩ | ⟨hv, -⟩
    · rw [hv]; exact (List.Sublist.refl _).append (by simp)
    · rw [hv]; exact List.Sublist.refl _
  have h5 : ∀ y ∈ Y, y ≠ endItem := fun y hy e => h4 y (by rw [hx]; simp [hy]) (by rw [e]; rfl)
  obtain ⟨l1, l2, k1, k2, k3⟩ := List.sublist_append_iff.1 hs
  have hl : treeItem g ∉ l1 := fun h => tree_file hg (k2.subset h)
  obtain ⟨a, rfl⟩ : ∃ a, l2 = a ++ treeItem g :: Y := by
    rcases List.append_eq_append_iff.1 k1 with ⟨a, m1, m2⟩ | ⟨a, m1, m2⟩
    · cases a with
      | nil => exact ⟨[], by simpa using m2.symm⟩
      | cons x a =>
        simp only [List.cons_append, List.cons.injEq] at m2
        exact absurd (by rw [m1, ← m2.1]; simp) hl
    · exact ⟨a, m2⟩
  have hne := tree_ne_end hg
  cases a with
  | nil =>
    have k4 := List.cons_sublist_cons.1 k3
    cases hY : Y with
    | nil => rfl
    | cons y Y' =>
      have h6 := k4.subset (show y ∈ Y by rw [hY]; simp)
      exact absurd (List.mem_singleton.1 h6) (h5 y (by rw [hY]; simp))
  | cons x a =>
    have k4 := k3.tail
    have h6 := k4.subset (show treeItem g ∈ a ++ treeItem g :: Y by simp)
    exact absurd (List.mem_singleton.1 h6) hne

/-- If the output of mtree has been requested or not, all files have been. -/
theorem tree_rest {g : Cfg} {files : List Item} {k0 : Bytes → Bool} {u : Stow.Sys} (hg : CfgOk g files) (h : Base g files k0 u)
    (ht : treeItem g ∈ u.cl.get ∨ treeItem g ∈ u.cl.flushed) : u.cl.subj = [] ∨ u.cl.subj = [endItem] := by
  obtain ⟨V, M, h1, h2, h3, h4⟩ := base_items h
  have hv : treeItem g ∈ V := h2.mem_iff.1 (List.mem_append.2 ht)
  rcases prefix_tree hg h1 hv with ⟨-, hw⟩ | ⟨-, hw⟩
  · rcases List.append_eq_singleton_iff.1 hw with ⟨-, h⟩ | ⟨-, h⟩
    · exact .inr h
    · exact .inl h
  · exact .inl (List.append_eq_nil_iff.1 hw).2

/-- After that, only the end mark is flushed. -/
theorem tree_last {g : Cfg} {files : List Item} {k0 : Bytes → Bool} {u u' : Stow.Sys} (hg : CfgOk g files) (h : Base g files k0 u) (h' : Base g files k0 u')
    {G F : List Item} (hG : u'.cl.get = u.cl.get ++ G) (hF : u'.cl.flushed = u.cl.flushed ++ F)
    (ht : treeItem g ∈ u.cl.get ∨ treeItem g ∈ u.cl.flushed) : G = [] ∧ (F = [] ∨ F = [endItem]) := by
  obtain ⟨V, M, h1, h2, h3, h4⟩ := base_items h
  obtain ⟨V', M', h1', h2', h3', h4'⟩ := base_items h'
  have hv : treeItem g ∈ V := h2.mem_iff.1 (List.mem_append.2 ht)
  have hv' : treeItem g ∈ V' := by
    refine h2'.mem_iff.1 (List.mem_append.2 ?_)
    rw [hG, hF]
    rcases ht with ht | ht
    · exact .inl (List.mem_append_left _ ht)
    · exact .inr (List.mem_append_left _ ht)
  rw [hG, hF] at h2'
  have hp : ((u.cl.get ++ u.cl.flushed) ++ (G ++ F)).Perm V' := by
    refine List.Perm.trans ?_ h2'
    rw [List.append_assoc, List.append_assoc]
    exact List.Perm.append_left _ (List.perm_append_comm_assoc _ _ _)
  have hp2 : (V ++ (G ++ F)).Perm V' := (h2.symm.append_right _).trans hp
  have hGF : G ++ F = [] ∨ G ++ F = [endItem] := by
    rcases prefix_tree hg h1 hv with ⟨rfl, -⟩ | ⟨rfl, -⟩ <;> rcases prefix_tree hg h1' hv' with ⟨rfl, -⟩ | ⟨rfl, -⟩
    · have := hp2.length_eq
      simp only [List.length_append, List.length_cons, List.length_nil] at this
      exact .inl (List.eq_nil_of_length_eq_zero (by rw [List.length_append]; omega))
    · have : ((files ++ [treeItem g]) ++ (G ++ F)).Perm ((files ++ [treeItem g]) ++ [endItem]) := by simpa using hp2
      exact .inr (List.perm_singleton.1 ((List.perm_append_left_iff _).1 this))
    · have := hp2.length_eq
      simp only [List.length_append, List.length_cons, List.length_nil] at this
      omega
    · have := hp2.length_eq
      simp only [List.length_append, List.length_cons, List.length_nil] at this
      exact .inl (List.eq_nil_of_length_eq_zero (by rw [List.length_append]; omega))
  rcases hGF with h | h
  · obtain ⟨h5, h6⟩ := List.append_eq_nil_iff.1 h
    exact ⟨h5, .inl h6⟩
  · rcases List.append_eq_singleton_iff.1 h with ⟨h5, h6⟩ | ⟨h5, h6⟩
    · exact ⟨h5, .inr h6⟩
    · exact absurd rfl (h4' endItem (by rw [hG, h5]; simp))

/-- What is flushed are files, the output of mtree and the end mark. -/
theorem flushed_item {g : Cfg} {files : List Item} {k0 : Bytes → Bool} {u : Stow.Sys} (hg : CfgOk g files) (h : Base g files k0 u) {x : Item}
    (hx : x ∈ u.cl.flushed) : x.isFile = true ∨ x = treeItem g ∨ x = endItem := by
  obtain ⟨V, M, h1, h2, h3, h4⟩ := base_items h
  have : x ∈ items g files := by rw [h1]; exact List.mem_append_left _ (h2.mem_iff.1 (List.mem_append_right _ hx))
  rcases List.mem_append.1 this with h | h
  · exact .inl (hg.files x h).1
  · exact .inr (by simpa using h)

end Verif.StowData
