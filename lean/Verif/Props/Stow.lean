/-
Property C43: the stow client requests exactly the missing files.
-/
import Verif.Proofs.Stow
import Verif.Props.Filter
import Verif.Props.Vlu

namespace Verif.Props
open Verif Stow Spec

/-- Everything the client asks about: the files and the output of mtree. -/
def asked (files : List Item) (tree : Bytes) : List Item := files ++ [⟨false, [], tree⟩]

/-- Nothing is left to do: all is sent, no message is in flight, the server is idle. -/
def Quiet (s : Sys) : Prop :=
  s.cl.subj = [] ∧ s.up = [] ∧ s.down = [] ∧ s.sv.job = none ∧ s.sv.queue = []

/-- The verdicts in the log are right: missing only if not known at the start, present only if known now. -/
def LogOk (k0 : Bytes → Bool) (s : Sys) : Prop :=
  (∀ x, k0 x = true → s.known x = true) ∧
  ∀ e ∈ s.log, (e.2 = true → k0 e.1 = false) ∧ (e.2 = false → s.known e.1 = true)

theorem logOk_step {n max : Nat} {k0 : Bytes → Bool} {s s' : Sys} {e : Ev} (h : LogOk k0 s)
    (hs : step n max s e = some (.ok s')) : LogOk k0 s' := by
  have same : ∀ {a b : Sys}, LogOk k0 a → b.known = a.known → b.log = a.log → LogOk k0 b := by
    intro a b ha h1 h2
    unfold LogOk
    rw [h1, h2]; exact ha
  cases e with
  | send =>
    simp only [step] at hs
    split at hs
    · cases hs
    · cases hs; exact same h rfl rfl
  | recv =>
    simp only [step] at hs
    split at hs
    · cases hs
    · injection hs with hs
      rw [Res.bind_eq_ok] at hs
      obtain ⟨r, _, hs⟩ := hs
      cases hs; exact same h rfl rfl
  | run =>
    simp only [step] at hs
    split at hs
    next =>
      cases hs
      refine ⟨h.1, ?_⟩
      intro e he
      rcases List.mem_append.1 he with he | he
      · exact h.2 e he
      · obtain ⟨l, _, rfl⟩ := List.mem_map.1 he
        constructor
        · intro ht
          cases hk : k0 (l.take n) with
          | false => rfl
          | true => simp only [h.1 _ hk] at ht; cases ht
        · intro hf
          simpa using hf
    next => cases hs
  | line =>
    simp only [step] at hs
    split at hs
    next =>
      injection hs with hs
      rw [Res.bind_eq_ok] at hs
      obtain ⟨r, _, hs⟩ := hs
      cases hs; exact same h rfl rfl
    next => cases hs
  | eof =>
    simp only [step] at hs
    split at hs
    next => cases hs; exact same h rfl rfl
    next => cases hs
  | resp =>
    simp only [step] at hs
    split at hs
    · cases hs
    · injection hs with hs
      rw [Res.bind_eq_ok] at hs
      obtain ⟨r, _, hs⟩ := hs
      cases hs; exact same h rfl rfl
  | store id =>
    cases hs
    refine ⟨fun x hx => by simp [h.1 x hx], ?_⟩
    intro e he
    exact ⟨(h.2 e he).1, fun hf => by simp [(h.2 e he).2 hf]⟩

theorem logOk_run {n max : Nat} {k0 : Bytes → Bool} : ∀ (es : List Ev) {s s' : Sys}, LogOk k0 s →
    run n max s es = some (.ok s') → LogOk k0 s'
  | [], s, s', h, hr => by cases hr; exact h
  | e :: es, s, s', h, hr => by
    rw [run] at hr
    split at hr
    · cases hr
    · rename_i s1 hs
      exact logOk_run es (logOk_step h hs) hr
    · injection hr with hr
      subst hr
      rename_i hne _
      exact absurd rfl (hne s')

theorem endLast_start {files : List Item} {tree : Bytes} (hf : ∀ x ∈ asked files tree, x.digest.length = 64) :
    EndLast (files ++ [⟨false, [], tree⟩, ⟨false, [], []⟩]) :=
  ⟨asked files tree, ⟨false, [], []⟩, by simp [asked], hf, rfl⟩

/-- The state of a run, in terms of the verdicts. -/
theorem run_verdicts {n max : Nat} (hn : 16 ≤ n) (hn' : n ≤ 64) (hmax : 0 < max) (hmax' : max < 2 ^ 32)
    {files : List Item} {tree : Bytes} (hf : ∀ x ∈ asked files tree, x.digest.length = 64)
    {known : Bytes → Bool} {es : List Ev} {r : Res Sys} (hr : run n max (start files tree known) es = some r) :
    ∃ s R A B, r = .ok s ∧ LogOk known s ∧
      Inv n max (files ++ [⟨false, [], tree⟩, ⟨false, [], []⟩]) s R A B := by
  obtain ⟨s, R, A, B, rfl, h⟩ := inv_runs hn hn' hmax hmax' (endLast_start hf) es
    (inv_start n max files tree known) hr
  exact ⟨s, R, A, B, rfl, logOk_run es ⟨fun _ h => h, by simp [start]⟩ hr, h⟩

/-- C43, at all times: no check fails in any run.  What has been requested is a sublist of what was asked
about, so that nothing is requested twice, and nothing that was in the archive at the start is requested.
What was given up as present is in the archive now. -/
theorem C43_always {n max : Nat} (hn : 16 ≤ n) (hn' : n ≤ 64) (hmax : 0 < max) (hmax' : max < 2 ^ 32)
    {files : List Item} {tree : Bytes} (hf : ∀ x ∈ asked files tree, x.digest.length = 64)
    {known : Bytes → Bool} {es : List Ev} {r : Res Sys} (hr : run n max (start files tree known) es = some r) :
    ∃ s, r = .ok s ∧ s.cl.get.Sublist (asked files tree) ∧
      (∀ x ∈ s.cl.get, known (x.digest.take n) = false) ∧
      (∀ x ∈ s.cl.flushed, x.digest ≠ [] → s.known (x.digest.take n) = true) := by
  obtain ⟨s, R, A, B, rfl, hl, h⟩ := run_verdicts hn hn' hmax hmax' hf hr
  have hlog : ∀ a ∈ R, a.1.digest ≠ [] → (a.1.digest.take n, a.2) ∈ s.log := by
    intro a ha hne
    rw [h.log]
    exact List.mem_map.2 ⟨a, List.mem_filter.2 ⟨by simp [ha], by simpa using hne⟩, rfl⟩
  have hne : ∀ x ∈ s.cl.get, x.digest ≠ [] := by
    intro x hx he
    rw [h.get] at hx
    obtain ⟨a, ha, rfl⟩ := List.mem_map.1 hx
    obtain ⟨h1, h2⟩ := List.mem_filter.1 ha
    have := h.fin a (by simp [h1]) he
    rw [this] at h2; cases h2
  have hsub : s.cl.get.Sublist (asked files tree ++ [⟨false, [], []⟩]) := by
    rw [show asked files tree ++ [⟨false, [], []⟩] = files ++ [⟨false, [], tree⟩, ⟨false, [], []⟩] by
      simp [asked], h.all, h.get, List.append_assoc, List.append_assoc]
    exact ((List.filter_sublist.map _).trans (List.sublist_append_left _ _))
  refine ⟨s, rfl, ?_, ?_, ?_⟩
  · have := hsub.filter (fun x => x.digest ≠ [])
    rw [List.filter_eq_self.2 (fun x hx => by simpa using hne x hx), List.filter_append] at this
    rw [show List.filter (fun x => decide (x.digest ≠ [])) [(⟨false, [], []⟩ : Item)] = [] by decide,
      List.append_nil] at this
    exact this.trans List.filter_sublist
  · intro x hx
    have hd := hne x hx
    rw [h.get] at hx
    obtain ⟨a, ha, rfl⟩ := List.mem_map.1 hx
    obtain ⟨h1, h2⟩ := List.mem_filter.1 ha
    exact (hl.2 _ (hlog a h1 hd)).1 h2
  · intro x hx hd
    rw [h.flushed] at hx
    obtain ⟨a, ha, rfl⟩ := List.mem_map.1 hx
    obtain ⟨h1, h2⟩ := List.mem_filter.1 ha
    exact (hl.2 _ (hlog a h1 hd)).2 (by simpa using h2)

/-- In a quiet state there is a verdict on everything, and the client has acted on all of them. -/
theorem quiet_verdicts {n max : Nat} {files : List Item} {tree : Bytes}
    (hf : ∀ x ∈ asked files tree, x.digest.length = 64) {s : Sys} {R A : List (Item × Bool)}
    {B : List Item} (h : Inv n max (files ++ [⟨false, [], tree⟩, ⟨false, [], []⟩]) s R A B) (hq : Quiet s) :
    ∃ V : List (Item × Bool), V.map (·.1) = asked files tree ∧
      s.log = V.map (fun a => (a.1.digest.take n, a.2)) ∧
      s.cl.get = (V.filter (·.2)).map (·.1) ∧ s.cl.wait = [] ∧
      s.cl.flushed = (V.filter (fun a => !a.2)).map (·.1) ++ [⟨false, [], []⟩] := by
  obtain ⟨q1, q2, q3, q4, q5⟩ := hq
  have hB : B = [] := by
    have := h.ids
    rw [q2, q4, q5] at this
    exact sentAll_nil this
  subst hB
  have hall : asked files tree ++ [⟨false, [], []⟩] = R.map (·.1) ++ A.map (·.1) := by
    have := h.all
    rw [q1] at this
    simpa [asked] using this
  have hA : A = [] := by
    rcases List.eq_nil_or_concat A with rfl | ⟨A', a, rfl⟩
    · rfl
    · have h1 : asked files tree ++ [⟨false, [], []⟩] = (R.map (·.1) ++ A'.map (·.1)) ++ [a.1] := by
        rw [hall]; simp
      have h2 := (List.append_inj' h1 rfl).2
      injection h2 with h2
      have := h.pend ⟨a, by simp, by rw [← h2]⟩
      rw [q3] at this; cases this
  subst hA
  rcases List.eq_nil_or_concat R with rfl | ⟨V, a, rfl⟩
  · simp at hall
  · have h1 : asked files tree ++ [⟨false, [], []⟩] = V.map (·.1) ++ [a.1] := by
      rw [hall]; simp
    obtain ⟨h2, h3⟩ := List.append_inj' h1 rfl
    injection h3 with h3
    have ha : a = (⟨false, [], []⟩, false) := by
      have := h.fin a (by simp) (by rw [← h3])
      exact Prod.ext h3.symm this
    have hV : V.filter (fun a => a.1.digest ≠ []) = V := by
      apply List.filter_eq_self.2
      intro b hb
      have := hf b.1 (by rw [h2]; exact List.mem_map.2 ⟨b, hb, rfl⟩)
      apply decide_eq_true
      intro h0
      rw [h0] at this; cases this
    refine ⟨V, h2.symm, ?_, ?_, ?_, ?_⟩
    · rw [h.log, List.append_nil, List.concat_eq_append, List.filter_append, hV, ha]; simp
    · rw [h.get, List.concat_eq_append, List.filter_append, ha]; simp
    · rw [h.wait]; simp
    · rw [h.flushed, List.concat_eq_append, List.filter_append, ha]; simp

/-- C43: when everything is done, the client has requested exactly those on which the server's verdict was
"missing", in order, and waits for nothing.  The verdicts are right: missing means that it was not in the
archive at the start, present that it is in the archive at the end. -/
theorem C43_verdicts {n max : Nat} (hn : 16 ≤ n) (hn' : n ≤ 64) (hmax : 0 < max) (hmax' : max < 2 ^ 32)
    {files : List Item} {tree : Bytes} (hf : ∀ x ∈ asked files tree, x.digest.length = 64)
    {known : Bytes → Bool} {es : List Ev} {s : Sys} (hr : run n max (start files tree known) es = some (.ok s))
    (hq : Quiet s) :
    ∃ V : List (Item × Bool), V.map (·.1) = asked files tree ∧ s.cl.get = (V.filter (·.2)).map (·.1) ∧
      s.cl.wait = [] ∧
      ∀ v ∈ V, (v.2 = true → known (v.1.digest.take n) = false) ∧
        (v.2 = false → s.known (v.1.digest.take n) = true) := by
  obtain ⟨s', R, A, B, he, hl, h⟩ := run_verdicts hn hn' hmax hmax' hf hr
  cases he
  obtain ⟨V, h1, h2, h3, h4, -⟩ := quiet_verdicts hf h hq
  refine ⟨V, h1, h3, h4, ?_⟩
  intro v hv
  exact hl.2 (v.1.digest.take n, v.2) (by rw [h2]; exact List.mem_map.2 ⟨v, hv, rfl⟩)

/-- Nothing is stored in the archive during the run. -/
def NoStore (es : List Ev) : Prop := ∀ id, Ev.store id ∉ es

theorem known_step {n max : Nat} {s s' : Sys} {e : Ev} (he : ∀ id, e ≠ .store id)
    (hs : step n max s e = some (.ok s')) : s'.known = s.known := by
  cases e with
  | send =>
    simp only [step] at hs
    split at hs
    · cases hs
    · cases hs; rfl
  | recv =>
    simp only [step] at hs
    split at hs
    · cases hs
    · injection hs with hs
      rw [Res.bind_eq_ok] at hs
      obtain ⟨r, _, hs⟩ := hs
      cases hs; rfl
  | run =>
    simp only [step] at hs
    split at hs
    next => cases hs; rfl
    next => cases hs
  | line =>
    simp only [step] at hs
    split at hs
    next =>
      injection hs with hs
      rw [Res.bind_eq_ok] at hs
      obtain ⟨r, _, hs⟩ := hs
      cases hs; rfl
    next => cases hs
  | eof =>
    simp only [step] at hs
    split at hs
    next => cases hs; rfl
    next => cases hs
  | resp =>
    simp only [step] at hs
    split at hs
    · cases hs
    · injection hs with hs
      rw [Res.bind_eq_ok] at hs
      obtain ⟨r, _, hs⟩ := hs
      cases hs; rfl
  | store id => exact absurd rfl (he id)

theorem known_run {n max : Nat} : ∀ (es : List Ev) {s s' : Sys}, NoStore es →
    run n max s es = some (.ok s') → s'.known = s.known
  | [], s, s', _, hr => by cases hr; rfl
  | e :: es, s, s', h, hr => by
    rw [run] at hr
    split at hr
    · cases hr
    · rename_i s1 hs
      rw [known_run es (fun id hm => h id (by simp [hm])) hr]
      exact known_step (fun id he => h id (by simp [he])) hs
    · injection hr with hr
      subst hr
      rename_i hne _
      exact absurd rfl (hne s')

/-- C43, with an archive that does not change meanwhile: exactly the missing ones are requested. -/
theorem C43_exact {n max : Nat} (hn : 16 ≤ n) (hn' : n ≤ 64) (hmax : 0 < max) (hmax' : max < 2 ^ 32)
    {files : List Item} {tree : Bytes} (hf : ∀ x ∈ asked files tree, x.digest.length = 64)
    {known : Bytes → Bool} {es : List Ev} (hes : NoStore es) {s : Sys}
    (hr : run n max (start files tree known) es = some (.ok s)) (hq : Quiet s) :
    s.cl.get = (asked files tree).filter (fun x => !known (x.digest.take n)) ∧ s.cl.wait = [] := by
  obtain ⟨V, h1, h2, h3, h4⟩ := C43_verdicts hn hn' hmax hmax' hf hr hq
  have hk : s.known = known := known_run es hes hr
  refine ⟨?_, h3⟩
  rw [h2, ← h1, List.filter_map]
  congr 1
  apply List.filter_congr
  intro v hv
  obtain ⟨a, b⟩ := h4 v hv
  rw [hk] at b
  simp only [Function.comp]
  cases hv2 : v.2 with
  | true => rw [a hv2]; rfl
  | false => rw [b hv2]; rfl

end Verif.Props
