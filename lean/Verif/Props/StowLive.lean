/-
Property C43, continued: the exchange comes to an end, and the lines of the filter job are those that
`main_filter` prints.
-/
import Verif.Props.Stow
import Verif.Props.FilterExample

namespace Verif.Props
open Verif Stow

/-! ### The exchange comes to an end -/

/-- The work left in a job. -/
def jobWork : Option Job → Nat
  | none => 0
  | some ⟨inp, none, _⟩ => 2 * inp.length + 3
  | some ⟨_, some ls, skip⟩ => 2 * ls.length + (if skip ≠ 0 then 2 else 1)

/-- The work left. -/
def work (s : Sys) : Nat :=
  7 * s.cl.subj.length + 6 * s.up.length + 5 * s.sv.queue.length + jobWork s.sv.job + s.down.length

theorem jobWork_none : jobWork none = 0 := rfl

theorem jobWork_in (inp : List Bytes) (k : Nat) : jobWork (some ⟨inp, none, k⟩) = 2 * inp.length + 3 := rfl

theorem jobWork_out (inp ls : List Bytes) (k : Nat) :
    jobWork (some ⟨inp, some ls, k⟩) = 2 * ls.length + (if k ≠ 0 then 2 else 1) := rfl

theorem flushAll_subj : ∀ (w : List Item) (c : Client), (flushAll w c).subj = c.subj
  | [], _ => rfl
  | x :: w, c => by rw [flushAll, flushAll_subj w]; rfl

theorem flushN_subj : ∀ (u : Nat) (w : List Item) (c c' : Client), flushN u w c = .ok c' → c'.subj = c.subj
  | 0, _, _, _, h => by cases h; rfl
  | _ + 1, [], _, _, h => by cases h
  | u + 1, x :: w, c, c', h => by rw [flushN] at h; exact flushN_subj u w (subjFlush c x w) c' h

theorem flushTo_subj (p : Bytes) : ∀ (w : List Item) (c c' : Client), flushTo p w c = .ok c' → c'.subj = c.subj
  | [], _, _, h => by cases h
  | x :: w, c, c', h => by
    rw [flushTo, Res.bind_eq_ok] at h
    obtain ⟨_, -, h⟩ := h
    split at h
    · cases h; rfl
    · exact flushTo_subj p w (subjFlush c x w) c' h

theorem filterResp_subj {c c' : Client} {p : Bytes} (h : filterResp c p = .ok c') : c'.subj = c.subj := by
  unfold filterResp at h
  split at h
  · cases h; exact flushAll_subj _ _
  · split at h
    · exact flushN_subj _ _ _ _ h
    · split at h
      · exact flushTo_subj _ _ { c with idSize := p.length } _ h
      · cases h

theorem startFilter_work {max : Nat} (hmax : 0 < max) : ∀ q : List Bytes,
    5 * (startFilter max q).2.queue.length + jobWork (startFilter max q).2.job +
      (startFilter max q).1.length ≤ 5 * q.length
  | [] => by simp [startFilter, jobWork]
  | [] :: q => by
    have := startFilter_work hmax q
    rw [startFilter]
    simp only [List.length_cons]
    omega
  | (c :: f) :: q => by
    obtain ⟨batch, hb⟩ : ∃ b, b = (((c :: f) :: q).takeWhile (fun f => f ≠ [])).take max := ⟨_, rfl⟩
    have hs : startFilter max ((c :: f) :: q) =
        ([], ⟨((c :: f) :: q).drop batch.length, some ⟨batch, none, batch.length⟩⟩) := by
      rw [startFilter]
      · simp only [hb]
      · intro h; cases h
      · intro q' h; cases h
    have hle : batch.length ≤ ((c :: f) :: q).length := by
      rw [hb]; exact ((List.take_prefix _ _).trans (List.takeWhile_prefix _)).length_le
    have hpos : 0 < batch.length := by
      obtain ⟨m, hm⟩ : ∃ m, max = m + 1 := ⟨max - 1, by omega⟩
      rw [hb, hm]; simp
    rw [hs]
    simp only [List.length_drop, jobWork, List.length_nil]
    omega

/-- Every step of the exchange leaves less work. -/
theorem work_step {n max : Nat} (hmax : 0 < max) {s s' : Sys} {e : Ev} (he : ∀ id, e ≠ .store id)
    (hs : step n max s e = some (.ok s')) : work s' < work s := by
  cases e with
  | send =>
    simp only [step] at hs
    split at hs
    · cases hs
    · rename_i cp rest hsub
      cases hs
      simp only [work, hsub, List.length_cons, List.length_append, List.length_nil]
      omega
  | recv =>
    simp only [step] at hs
    split at hs
    · cases hs
    · rename_i p up hup
      injection hs with hs
      rw [Res.bind_eq_ok] at hs
      obtain ⟨r, h1, hs⟩ := hs
      cases hs
      rw [input, Res.bind_eq_ok] at h1
      obtain ⟨_, -, h1⟩ := h1
      cases hj : s.sv.job with
      | none =>
        rw [hj] at h1
        cases h1
        have := startFilter_work hmax (s.sv.queue ++ [p])
        simp only [List.length_append, List.length_cons, List.length_nil] at this
        simp only [work, hup, hj, jobWork_none, List.length_cons, List.length_append]
        omega
      | some j =>
        rw [hj] at h1
        simp only at h1
        cases h1
        simp only [work, hup, hj, List.length_cons, List.length_append, List.length_nil]
        omega
  | run =>
    simp only [step] at hs
    split at hs
    next inp skip hj =>
      cases hs
      have hle : (missing n s.known inp).length ≤ inp.length := List.length_filter_le _ _
      simp only [work, hj, jobWork_in, jobWork_out]
      split <;> omega
    next => cases hs
  | line =>
    simp only [step] at hs
    split at hs
    next inp l ls skip hj =>
      injection hs with hs
      rw [Res.bind_eq_ok] at hs
      obtain ⟨r, h1, hs⟩ := hs
      cases hs
      simp only [filterLine, Res.bind_eq_ok] at h1
      obtain ⟨_, -, _, -, h1⟩ := h1
      cases h1
      simp only [work, hj, jobWork_out, List.length_cons, List.length_append, List.length_nil]
      rw [if_neg (by decide : ¬ (0 : Nat) ≠ 0)]
      split <;> omega
    next => cases hs
  | eof =>
    simp only [step] at hs
    split at hs
    next inp skip hj =>
      cases hs
      have := startFilter_work hmax s.sv.queue
      simp only [work, hj, jobWork_out, filterEnd]
      by_cases hq : s.sv.queue = []
      · rw [if_pos hq]
        simp only [hq, List.length_append, List.length_nil, jobWork_none]
        by_cases hk : skip ≠ 0
        · simp only [if_pos hk, List.length_cons, List.length_nil]; omega
        · simp only [if_neg hk, List.length_nil]; omega
      · rw [if_neg hq]
        simp only [List.length_append]
        by_cases hk : skip ≠ 0
        · simp only [if_pos hk, List.length_cons, List.length_nil]; omega
        · simp only [if_neg hk, List.length_nil]; omega
    next => cases hs
  | resp =>
    simp only [step] at hs
    split at hs
    · cases hs
    · rename_i p down hd
      injection hs with hs
      rw [Res.bind_eq_ok] at hs
      obtain ⟨c, h1, hs⟩ := hs
      cases hs
      have hsub := filterResp_subj h1
      simp only [work, hd, hsub, List.length_cons]
      omega
  | store id => exact absurd rfl (he id)

/-- As long as there is work left, some step of the exchange is possible. -/
theorem enabled_of_not_quiet {n max : Nat} {I : List Item} {s : Sys} {R A : List (Item × Bool)}
    {B : List Item} (h : Inv n max I s R A B) (hq : ¬ Quiet s) :
    ∃ e r, (∀ id, e ≠ .store id) ∧ step n max s e = some r := by
  cases hsub : s.cl.subj with
  | cons x rest => exact ⟨.send, _, by simp, by rw [step, hsub]⟩
  | nil =>
    cases hup : s.up with
    | cons x rest => exact ⟨.recv, _, by simp, by rw [step, hup]⟩
    | nil =>
      cases hd : s.down with
      | cons x rest => exact ⟨.resp, _, by simp, by rw [step, hd]⟩
      | nil =>
        cases hj : s.sv.job with
        | none =>
          refine absurd ⟨hsub, hup, hd, hj, ?_⟩ hq
          cases hqq : s.sv.queue with
          | nil => rfl
          | cons a b => exact absurd hj (h.busy (by simp [hqq]))
        | some j =>
          obtain ⟨inp, out, skip⟩ := j
          cases out with
          | none => exact ⟨.run, _, by simp, by rw [step, hj]⟩
          | some ls =>
            cases ls with
            | nil => exact ⟨.eof, _, by simp, by rw [step, hj]⟩
            | cons l ls => exact ⟨.line, _, by simp, by rw [step, hj]⟩

/-- C43: however the exchange has gone so far, it can go on until everything is done. -/
theorem C43_finish {n max : Nat} (hn : 16 ≤ n) (hn' : n ≤ 64) (hmax : 0 < max) (hmax' : max < 2 ^ 32)
    {files : List Item} {tree : Bytes} (hf : ∀ x ∈ asked files tree, x.digest.length = 64)
    {known : Bytes → Bool} {es : List Ev} {s : Sys}
    (hr : run n max (start files tree known) es = some (.ok s)) :
    ∃ fs s', NoStore fs ∧ run n max s fs = some (.ok s') ∧ Quiet s' := by
  obtain ⟨s1, R, A, B, he, -, h⟩ := run_verdicts hn hn' hmax hmax' hf hr
  cases he
  clear hr
  obtain ⟨k, hk⟩ : ∃ k, k = work s := ⟨_, rfl⟩
  induction k using Nat.strongRecOn generalizing s R A B with
  | _ k ih =>
    by_cases hq : Quiet s
    · exact ⟨[], s, fun id h => (by cases h), rfl, hq⟩
    · obtain ⟨e, r, he, hs⟩ := enabled_of_not_quiet h hq
      obtain ⟨s', R', A', B', rfl, h'⟩ := inv_step hn hn' hmax hmax' (endLast_start hf) h hs
      have hlt := work_step hmax he hs
      obtain ⟨fs, s2, h1, h2, h3⟩ := ih (work s') (by omega) _ _ _ h' rfl
      refine ⟨e :: fs, s2, ?_, ?_, h3⟩
      · intro id hm
        rcases List.mem_cons.1 hm with h0 | h0
        · exact he id h0.symm
        · exact h1 id h0
      · rw [run]; simp only [hs]; exact h2

/-- C43: the exchange cannot go on for ever.  A run without stores has fewer steps than 7 for each item. -/
theorem C43_bounded {n max : Nat} (hn : 16 ≤ n) (hn' : n ≤ 64) (hmax : 0 < max) (hmax' : max < 2 ^ 32)
    {files : List Item} {tree : Bytes} (hf : ∀ x ∈ asked files tree, x.digest.length = 64)
    {known : Bytes → Bool} {es : List Ev} (hes : NoStore es) {s : Sys}
    (hr : run n max (start files tree known) es = some (.ok s)) : es.length ≤ 7 * (files.length + 2) := by
  have key : ∀ (es : List Ev) (s s' : Sys) (R A : List (Item × Bool)) (B : List Item), NoStore es →
      Inv n max (files ++ [⟨false, [], tree⟩, ⟨false, [], []⟩]) s R A B → run n max s es = some (.ok s') →
      es.length + work s' ≤ work s := by
    intro es
    induction es with
    | nil => intro s s' R A B _ _ hr; cases hr; simp
    | cons e es ih =>
      intro s s' R A B hes h hr
      rw [run] at hr
      cases hs : step n max s e with
      | none => rw [hs] at hr; cases hr
      | some r =>
        obtain ⟨s1, R', A', B', rfl, h'⟩ := inv_step hn hn' hmax hmax' (endLast_start hf) h hs
        rw [hs] at hr
        have h1 := ih s1 s' R' A' B' (fun id hm => hes id (by simp [hm])) h' hr
        have h2 := work_step hmax (fun id he => hes id (by simp [he])) hs
        simp only [List.length_cons]
        omega
  have := key es _ s _ _ _ hes (inv_start n max files tree known) hr
  have h0 : work (start files tree known) = 7 * (files.length + 2) := by
    simp [work, start, jobWork_none]
  omega

/-! ### The filter job -/

/-- Which IDs the filter finds in the index of a history. -/
def inIndex (ops : List Spec.IdxOp) (id : Bytes) : Bool :=
  (Spec.inserts ops).any fun i => Spec.padKey 24 i.id == id.take 24

theorem no_prefix {pfx l : Bytes} (hp : ∃ c ∈ pfx, isHex (toLower c) = false) (hl : ∀ c ∈ l, isHex c = true) :
    ¬ pfx.map toLower <+: l.map toLower := by
  intro h
  obtain ⟨c, hc, hx⟩ := hp
  have := h.subset (List.mem_map.2 ⟨c, hc, rfl⟩)
  obtain ⟨d, hd, he⟩ := List.mem_map.1 this
  rw [← he, isHex_lower (hl d hd)] at hx
  cases hx

theorem linesOf_textOf : ∀ ls : List Bytes, (∀ l ∈ ls, ∀ c ∈ l, c ≠ 10 ∧ c ≠ 13) →
    Spec.linesOf (textOf ls) = ls ∧ Spec.restOf (textOf ls) = [] := by
  have split : ∀ (l cur t : Bytes), (∀ c ∈ l, c ≠ 10 ∧ c ≠ 13) →
      Spec.splitLines cur (l ++ 10 :: t) = ((cur ++ l) :: (Spec.splitLines [] t).1, (Spec.splitLines [] t).2) := by
    intro l
    induction l with
    | nil => intro cur t _; rw [List.nil_append, Spec.splitLines, if_pos (Or.inl rfl), List.append_nil]
    | cons c l ih =>
      intro cur t h
      have hc := h c (by simp)
      rw [List.cons_append, Spec.splitLines, if_neg (by simp [hc]), ih _ _ (fun d hd => h d (by simp [hd]))]
      simp
  intro ls
  induction ls with
  | nil => intro _; exact ⟨rfl, rfl⟩
  | cons l ls ih =>
    intro h
    obtain ⟨h1, h2⟩ := ih (fun x hx => h x (by simp [hx]))
    have ht : textOf (l :: ls) = l ++ 10 :: textOf ls := by simp [textOf]
    unfold Spec.linesOf Spec.restOf at *
    rw [ht, split l [] _ (h l (by simp))]
    simp only [List.nil_append, h1, h2, and_self]

/-- C43: the filter job.  For a batch of IDs in hexadecimal, `main_filter` prints what `missing` says, and
these are the lines which come to `filter_line` (`VLU_New` with 256 bytes), whatever the sizes of the reads. -/
theorem C43_job {nb ps : Nat} (hnb : 66 ≤ nb) {pfx : Bytes} (hp : ∃ c ∈ pfx, isHex (toLower c) = false)
    {n : Nat} {qs : List Filter.Elem → List Filter.Elem}
    (hq : ∀ l, (qs l).Perm l ∧ Filter.Sorted (qs l)) {ops : List Spec.IdxOp} (hv : ∀ o ∈ ops, o.Valid)
    (hb : (Spec.inserts ops).length < 2 ^ 31) {w : Wsilo.World} (hw : Spec.runOps {} ops = .ok w.dir)
    (batch : List Bytes) (hbatch : ∀ l ∈ batch, 0 < l.length ∧ n ≤ l.length ∧ l.length ≤ 64 ∧ ∀ c ∈ l, isHex c = true) :
    Filter.mainFilter nb ps pfx n qs w false false false [textOf batch] =
      .ok (some (textOf (missing n (inIndex ops) batch))) ∧
    ∀ (sz : Nat → Nat), (∀ i, 0 < sz i) → ∀ {σ : Type} (f : σ → Bytes → σ × Int) (s : σ),
      Vlu.vluFile f sz ((textOf (missing n (inIndex ops) batch)).length + 1) 0 (Vlu.vluNew 256) s
        (textOf (missing n (inIndex ops) batch)) =
      some (if (Spec.deliverLines f (missing n (inIndex ops) batch) s).2 ≠ 0
        then Spec.deliverLines f (missing n (inIndex ops) batch) s
        else ((Spec.deliverLines f (missing n (inIndex ops) batch) s).1, -2)) := by
  have hex : ∀ l ∈ batch, ∀ c ∈ l, c ≠ 0 ∧ c ≠ 10 ∧ c ≠ 13 := by
    intro l hl c hc
    have := (hbatch l hl).2.2.2 c hc
    refine ⟨?_, ?_, ?_⟩ <;> rintro rfl <;> simp [isHex] at this
  constructor
  · have hflat : ([batch] : List (List Bytes)).flatten = batch := by simp
    have h := C41_exact (n := nb) (ps := ps) (pfx := pfx) (idSize := n) hq hv hb hw (ids := fun l => l.take n)
      (files := [batch]) (by
        rw [hflat]
        intro l hl
        obtain ⟨h1, h2, h3, h4⟩ := hbatch l hl
        refine ⟨⟨fun h => (hex l hl 0 h).1 rfl, fun h => (hex l hl 10 h).2.1 rfl, by omega⟩, fun _ => ?_⟩
        refine ⟨by rw [List.length_take]; omega, fun c hc => h4 c (List.mem_of_mem_take hc), [], l.drop n,
          by simp, Or.inr ⟨rfl, no_prefix hp h4⟩⟩) false false
    rw [hflat] at h
    rw [List.map_cons, List.map_nil] at h
    rw [h]
    congr 2
    have hne : batch.filter (· ≠ []) = batch := by
      apply List.filter_eq_self.2
      intro l hl
      apply decide_eq_true
      rintro rfl
      exact absurd (hbatch [] hl).1 (by simp)
    rw [hne]
    clear h hne hex hflat hbatch
    induction batch with
    | nil => rfl
    | cons l batch ih =>
      rw [List.map_cons, List.flatten_cons, ih]
      simp only [missing, List.filter_cons, inIndex]
      by_cases hk : ((Spec.inserts ops).any fun i => Spec.padKey 24 i.id == (l.take n).take 24) = true
      · rw [hk]; simp [report]
      · rw [Bool.not_eq_true] at hk
        rw [hk]
        simp [report, textOf]
  · intro sz hsz σ f s
    obtain ⟨l1, l2⟩ := linesOf_textOf (missing n (inIndex ops) batch) (fun l hl c hc =>
      (hex l (List.mem_filter.1 hl).1 c hc).2)
    have h := C44_file_lines f s 256 (by decide) sz hsz (textOf (missing n (inIndex ops) batch)) (by
        intro h0
        unfold textOf at h0
        obtain ⟨t, ht, h0⟩ := List.mem_flatten.1 h0
        obtain ⟨l, hl, rfl⟩ := List.mem_map.1 ht
        rcases List.mem_append.1 h0 with h0 | h0
        · exact (hex l (List.mem_filter.1 hl).1 0 h0).1 rfl
        · simp at h0) (by
        rw [l1]
        intro l hl
        have := (hbatch l (List.mem_filter.1 hl).1).2.2.1
        omega) (by rw [l2]; decide)
    rw [l1] at h
    exact h

/-! ### Examples and limits -/

/-- The requests at the end of a run, if nothing is left to do. -/
def requests (r : Option (Res Sys)) : Option (List Bytes) :=
  match r with
  | some (.ok s) =>
    if s.cl.subj = [] ∧ s.up = [] ∧ s.down = [] ∧ s.sv.job = none ∧ s.sv.queue = [] ∧ s.cl.wait = []
    then some (s.cl.get.map (·.name)) else none
  | _ => none

/-- A digest for the examples. -/
def exDigest (c : UInt8) : Bytes := List.replicate 64 c

/-- Five files, two of them with the same content. -/
def exFiles : List Item :=
  [⟨true, b!"a", exDigest 97⟩, ⟨true, b!"b", exDigest 98⟩, ⟨true, b!"b2", exDigest 98⟩, ⟨true, b!"c", exDigest 99⟩,
   ⟨true, b!"d", exDigest 100⟩]

/-- Some way of running it: the first ID goes alone, the others in batches of at most three. -/
def exEvents : List Ev :=
  [.send, .recv, .send, .send, .recv, .recv, .run, .send, .recv, .eof, .send, .send, .recv, .run, .line, .resp, .resp,
   .recv, .send, .line, .eof, .recv, .run, .resp, .line, .line, .eof, .resp, .resp, .resp]

set_option maxRecDepth 100000 in
/-- Non-vacuity: `a` and `c` are in the archive, and the tree is not. -/
example : requests (run 32 3 (start exFiles (exDigest 101) (fun id => id == List.replicate 32 97 || id == List.replicate 32 99))
    exEvents) = some [b!"b", b!"b2", b!"d", []] := by decide +kernel

set_option maxRecDepth 100000 in
/-- The same when `d` is stored by someone else before the batch that has it is looked at. -/
example : requests (run 32 3 (start exFiles (exDigest 101) (fun id => id == List.replicate 32 97 || id == List.replicate 32 99))
    (.store (fun id => id == List.replicate 32 100) :: exEvents.take 24 ++ [.line, .eof, .resp, .resp])) = some [b!"b", b!"b2", []] := by
  decide +kernel

/-- C43 for an archive with IDs of at least 24 digits: if no ID on either side has its first 24 digits in
common with a different one, exactly the files whose IDs are not in the index are requested. -/
theorem C43_stow_partial {n max : Nat} (hn : 24 ≤ n) (hn' : n ≤ 64) (hmax : 0 < max) (hmax' : max < 2 ^ 32)
    {files : List Item} {tree : Bytes}
    (hf : ∀ x ∈ asked files tree, x.digest.length = 64 ∧ ∀ c ∈ x.digest, toLower c = c)
    {ops : List Spec.IdxOp}
    (hclear : ∀ x ∈ asked files tree, ∀ i ∈ Spec.inserts ops,
      Spec.padKey 24 i.id = Spec.padKey 24 x.digest → i.id = x.digest.take n)
    {es : List Ev} (hes : NoStore es) {s : Sys}
    (hr : run n max (start files tree (inIndex ops)) es = some (.ok s)) (hq : Quiet s) :
    s.cl.get = (asked files tree).filter (fun x => x.digest.take n ∉ (Spec.inserts ops).map (·.id)) ∧
      s.cl.wait = [] := by
  obtain ⟨h1, h2⟩ := C43_exact (by omega) hn' hmax hmax' (fun x hx => (hf x hx).1) hes hr hq
  refine ⟨?_, h2⟩
  rw [h1]
  apply List.filter_congr
  intro x hx
  obtain ⟨hl, hlow⟩ := hf x hx
  have hk : ∀ d : Bytes, 24 ≤ d.length → (∀ c ∈ d, toLower c = c) → Spec.padKey 24 d = d.take 24 := by
    intro d hd hlow
    unfold Spec.padKey
    simp only [← List.map_take]
    rw [List.length_map, List.length_take, show 24 - min 24 d.length = 0 by omega, List.replicate_zero, List.append_nil]
    conv => rhs; rw [← List.map_id (d.take 24)]
    exact List.map_congr_left (fun c hc => hlow c (List.mem_of_mem_take hc))
  rw [Bool.eq_iff_iff]
  simp only [inIndex, Bool.not_eq_true', decide_eq_true_eq, ← Bool.not_eq_true, List.any_eq_true, beq_iff_eq,
    List.take_take, Nat.min_eq_left hn, List.mem_map]
  rw [← hk x.digest (by omega) hlow]
  constructor
  · rintro h ⟨i, hi, he⟩
    refine h ⟨i, hi, ?_⟩
    rw [he, hk _ (by rw [List.length_take]; omega) (fun c hc => hlow c (List.mem_of_mem_take hc)), List.take_take,
      Nat.min_eq_left hn, ← hk x.digest (by omega) hlow]
  · rintro h ⟨i, hi, he⟩
    exact h ⟨i, hi, hclear x hx i hi he⟩

/-- C43 does not hold when the archive uses IDs of fewer than 24 digits: the filter finds none of them, so
every file is requested, though it is in the archive. -/
theorem C43_counterexample_short (ops : List Spec.IdxOp) {id : Bytes} (h : id.length < 24) : inIndex ops id = false := by
  unfold inIndex
  rw [← Bool.not_eq_true, List.any_eq_true]
  rintro ⟨i, -, hi⟩
  rw [beq_iff_eq] at hi
  have := congrArg List.length hi
  rw [padKey_length, List.length_take] at this
  omega

end Verif.Props
