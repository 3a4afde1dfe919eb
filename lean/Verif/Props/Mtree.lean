/-
Property C63: the client stows exactly the files that mtree lists.
-/
import Verif.Proofs.Mtree

namespace Verif.Props
open Verif Mtree
open _root_.Verif.Spec.Mtree

theorem strncmp_prefix (w p : Bytes) : strncmpEq w p p.length = true ↔ p <+: w := by
  unfold strncmpEq
  rw [List.take_length, beq_iff_eq, List.prefix_iff_eq_take]
  exact eq_comm

theorem plain_type {w : Bytes} (h : Plain w) : w ≠ b!"type=dir" ∧ w ≠ b!"type=file" ∧ strncmpEq w b!"type=" 5 = false ∧ strncmpEq w b!"sha256digest=" 13 = false := by
  refine ⟨?_, ?_, ?_, ?_⟩
  · rintro rfl; exact h.1 (by decide)
  · rintro rfl; exact h.1 (by decide)
  · rw [Bool.eq_false_iff]; exact fun k => h.1 ((strncmp_prefix w b!"type=").1 k)
  · rw [Bool.eq_false_iff]; exact fun k => h.2 ((strncmp_prefix w b!"sha256digest=").1 k)

theorem entry_plain {w : Bytes} (h : Plain w) (ws : List Bytes) (d : Bool) (g : Option Bytes) : entryWords (w :: ws) d g = entryWords ws d g := by
  obtain ⟨h1, h2, h3, h4⟩ := plain_type h
  rw [entryWords, if_neg h1, if_neg h2, h3, h4]
  simp

theorem entry_digest (x : Bytes) (ws : List Bytes) (d : Bool) (g : Option Bytes) :
    entryWords ((b!"sha256digest=" ++ x) :: ws) d g = if x = emptyDigest then none else entryWords ws d (some x) := by
  rw [entryWords, if_neg, if_neg, if_neg, if_pos]
  · rfl
  · exact (strncmp_prefix _ b!"sha256digest=").2 (List.prefix_append _ _)
  · simp [strncmpEq]
  · simp
  · simp

theorem entry_file_type (ws : List Bytes) (d : Bool) (g : Option Bytes) : entryWords (b!"type=file" :: ws) d g = entryWords ws false g := by
  rw [entryWords, if_neg (by decide), if_pos rfl]

theorem entry_dir_type (ws : List Bytes) (d : Bool) (g : Option Bytes) : entryWords (b!"type=dir" :: ws) d g = entryWords ws true g := by
  rw [entryWords, if_pos rfl]

theorem entry_file {x : Bytes} (hx : x ≠ emptyDigest) : ∀ (ws : List Bytes) (d : Bool) (g : Option Bytes), (∀ w ∈ ws, w = b!"type=file" ∨ w = b!"sha256digest=" ++ x ∨ Plain w) →
    (b!"sha256digest=" ++ x ∈ ws ∨ g = some x) → (d = false ∨ b!"type=file" ∈ ws) → entryWords ws d g = some (false, some x)
  | [], d, g, _, h2, h3 => by
    rcases h2 with h | h
    · cases h
    · rcases h3 with k | k
      · rw [h, k]; rfl
      · cases k
  | w :: ws, d, g, h1, h2, h3 => by
    have h1' := fun v hv => h1 v (List.mem_cons_of_mem _ hv)
    rcases h1 w (by simp) with rfl | rfl | h
    · rw [entry_file_type]
      apply entry_file hx ws _ _ h1' _ (.inl rfl)
      rcases h2 with h | h
      · rcases List.mem_cons.1 h with h | h
        · simp at h
        · exact .inl h
      · exact .inr h
    · rw [entry_digest, if_neg hx]
      apply entry_file hx ws _ _ h1' (.inr rfl)
      rcases h3 with h | h
      · exact .inl h
      · rcases List.mem_cons.1 h with h | h
        · simp at h
        · exact .inr h
    · rw [entry_plain h]
      apply entry_file hx ws _ _ h1'
      · rcases h2 with k | k
        · rcases List.mem_cons.1 k with k | k
          · rw [← k] at h; exact absurd (List.prefix_append _ _) h.2
          · exact .inl k
        · exact .inr k
      · rcases h3 with k | k
        · exact .inl k
        · rcases List.mem_cons.1 k with k | k
          · rw [← k] at h; exact absurd (by decide) h.1
          · exact .inr k

theorem entry_empty : ∀ (ws : List Bytes) (d : Bool) (g : Option Bytes), (∀ w ∈ ws, w = b!"type=file" ∨ w = b!"sha256digest=" ++ emptyDigest ∨ Plain w) →
    b!"sha256digest=" ++ emptyDigest ∈ ws → entryWords ws d g = none
  | [], d, g, _, h2 => by cases h2
  | w :: ws, d, g, h1, h2 => by
    have h1' := fun v hv => h1 v (List.mem_cons_of_mem _ hv)
    rcases h1 w (by simp) with rfl | rfl | h
    · rw [entry_file_type]
      apply entry_empty ws _ _ h1'
      rcases List.mem_cons.1 h2 with h | h
      · simp at h
      · exact h
    · rw [entry_digest, if_pos rfl]
    · rw [entry_plain h]
      apply entry_empty ws _ _ h1'
      rcases List.mem_cons.1 h2 with k | k
      · rw [← k] at h; exact absurd (List.prefix_append _ _) h.2
      · exact k

theorem entry_dir : ∀ (ws : List Bytes) (d : Bool) (g : Option Bytes), (∀ w ∈ ws, w = b!"type=dir" ∨ Plain w) → (d = true ∨ b!"type=dir" ∈ ws) →
    entryWords ws d g = some (true, g)
  | [], d, g, _, h3 => by
    rcases h3 with k | k
    · rw [k]; rfl
    · cases k
  | w :: ws, d, g, h1, h3 => by
    have h1' := fun v hv => h1 v (List.mem_cons_of_mem _ hv)
    rcases h1 w (by simp) with rfl | h
    · rw [entry_dir_type]
      exact entry_dir ws _ _ h1' (.inl rfl)
    · rw [entry_plain h]
      apply entry_dir ws _ _ h1'
      rcases h3 with k | k
      · exact .inl k
      · rcases List.mem_cons.1 k with k | k
        · rw [← k] at h; exact absurd (by decide) h.1
        · exact .inr k

theorem entry_other {k : Bytes} (hk1 : k ≠ b!"dir") (hk2 : k ≠ b!"file") (v : List Bytes) : ∀ (u : List Bytes) (d : Bool) (g : Option Bytes), (∀ w ∈ u, Plain w) →
    entryWords (u ++ (b!"type=" ++ k) :: v) d g = none
  | [], d, g, _ => by
    rw [List.nil_append, entryWords, if_neg, if_neg, if_pos]
    · exact (strncmp_prefix _ b!"type=").2 (List.prefix_append _ _)
    · intro h
      exact hk2 (List.append_cancel_left (as := b!"type=") h)
    · intro h
      exact hk1 (List.append_cancel_left (as := b!"type=") h)
  | w :: u, d, g, h => by
    rw [List.cons_append, entry_plain (h w (by simp))]
    exact entry_other hk1 hk2 v u d g (fun x hx => h x (by simp [hx]))

theorem set_none : ∀ (ws : List Bytes) (t : Bool), (∀ w ∈ ws, w ≠ b!"type=dir" ∧ w ≠ b!"type=file") → setWords ws t = t
  | [], _, _ => rfl
  | w :: ws, t, h => by
    obtain ⟨h1, h2⟩ := h w (by simp)
    rw [setWords, if_neg h1, if_neg h2, set_none ws t (fun x hx => h x (by simp [hx]))]

theorem set_false : ∀ (ws : List Bytes), (∀ w ∈ ws, w ≠ b!"type=dir") → setWords ws false = false
  | [], _ => rfl
  | w :: ws, h => by
    rw [setWords, if_neg (h w (by simp)), ite_self, set_false ws (fun x hx => h x (by simp [hx]))]

theorem set_true : ∀ (ws : List Bytes), (∀ w ∈ ws, w ≠ b!"type=file") → setWords ws true = true
  | [], _ => rfl
  | w :: ws, h => by
    rw [setWords, if_neg (h w (by simp)), ite_self, set_true ws (fun x hx => h x (by simp [hx]))]

theorem set_append : ∀ (u v : List Bytes) (t : Bool), setWords (u ++ v) t = setWords v (setWords u t)
  | [], _, _ => rfl
  | w :: u, v, t => by rw [List.cons_append, setWords, setWords, set_append u v]

theorem upTo_name {a n : Bytes} (h : (47 : UInt8) ∉ n) : upTo (a ++ b!"/" ++ n) = a := by
  unfold upTo
  have e : (a ++ b!"/" ++ n).reverse = n.reverse ++ (47 :: a.reverse) := by simp
  rw [if_pos (by simp), e, List.dropWhile_append_of_pos]
  · simp
  · intro c hc
    have : c ≠ 47 := fun k => h (by rw [← k]; exact List.mem_reverse.1 hc)
    simpa using this

/-- The subject for a file. -/
def subjOf (f : File) : Subj := ⟨f.dir, f.name, f.digest⟩

/-- The files that are not empty. -/
def full (l : List File) : List File := l.filter (fun f => f.digest ≠ emptyDigest)

theorem full_append (a b : List File) : full (a ++ b) = full a ++ full b := List.filter_append ..

theorem words_set (s : St) (ws : List Bytes) : interpretWords s (b!"/set" :: ws) = .ok { s with typeDir := setWords ws s.typeDir } := by
  rw [interpretWords, if_neg (by decide), if_pos rfl]

theorem words_up {s : St} {d : Bytes} {P : List Bytes} (h : s.pwd = d :: P) : interpretWords s [b!".."] = .ok { s with path := upTo s.path, pwd := P } := by
  rw [interpretWords, if_neg (by decide), if_neg (by decide), if_pos rfl, h]
  rfl

theorem words_entry {s : St} {n : Bytes} (h : Name n) (ws : List Bytes) : interpretWords s (n :: ws) =
    match entryWords ws s.typeDir none with
      | none => .ok s
      | some (false, digest) => addFile s n digest
      | some (true, _) => addDir s n := by
  have h1 : n ≠ b!"/set" := by
    intro k
    exact (h.2.2 47 (by rw [k]; decide)).2.2 rfl
  rw [interpretWords, if_neg h.1, if_neg h1, if_neg h.2.1]
  rfl

/-- The lines for the entries of a directory `d`. -/
theorem lines_ok {t t' : Bool} {x : Tree} {ls : List (List Bytes)} (h : Lines t x ls t') : ∀ {s : St} {d : Bytes} {P : List Bytes}, Named x →
    s.path = b!"/" ++ d → s.typeDir = t → s.pwd = d :: P → (∀ e ∈ dirsIn d x, e.length < 4095) →
    runWords s ls = .ok { s with typeDir := t', subjs := s.subjs ++ (full (filesIn d x)).map subjOf } := by
  induction h with
  | nil t =>
    intro s d P _ _ ht _ _
    rw [runWords, ← ht]; simp [filesIn, full]
  | setNone ws h1 _ ih =>
    intro s d P hn hp ht hw hd
    rw [runWords, words_set, Res.ok_bind, set_none ws _ h1]
    exact ih hn hp ht hw hd
  | setFile u v h1 _ ih =>
    intro s d P hn hp ht hw hd
    rw [runWords, words_set, Res.ok_bind, set_append, setWords, if_neg (by decide), if_pos rfl, set_false v h1,
      ih (s := { s with typeDir := false }) hn hp rfl hw hd]
  | setDir u v h1 _ ih =>
    intro s d P hn hp ht hw hd
    rw [runWords, words_set, Res.ok_bind, set_append, setWords, if_pos rfl, set_true v h1,
      ih (s := { s with typeDir := true }) hn hp rfl hw hd]
  | @file t t' rest ls n g ws h1 h2 h3 _ ih =>
    intro s d P hn hp ht hw hd
    rw [runWords, words_entry hn.1]
    by_cases hg : g = emptyDigest
    · subst hg
      rw [entry_empty ws _ _ h1 h2]
      simp only [Res.ok_bind]
      rw [ih hn.2 hp ht hw hd]
      simp [filesIn, full]
    · rw [entry_file hg ws _ _ h1 (.inl h2) (by rw [ht]; exact h3)]
      have e : addFile s n (some g) = .ok { s with subjs := s.subjs ++ [⟨d, n, g⟩] } := by
        unfold addFile
        rw [hw]
      simp only [e, Res.ok_bind]
      rw [ih (s := { s with subjs := s.subjs ++ [⟨d, n, g⟩] }) hn.2 hp ht hw hd]
      simp [filesIn, full, hg, subjOf]
  | other u v k h1 h2 h3 _ ih =>
    intro s d P hn hp ht hw hd
    rw [runWords, words_entry hn.1, entry_other h2 h3 v u _ _ h1]
    simp only [Res.ok_bind]
    rw [ih hn.2 hp ht hw hd]
    rfl
  | @dir t t1 t' sub rest l1 l2 n ws h1 h2 _ _ ih1 ih2 =>
    intro s d P hn hp ht hw hd
    have hdn : (d ++ b!"/" ++ n).length < 4095 := hd _ (by simp [dirsIn])
    have hns : (47 : UInt8) ∉ n := fun k => (hn.1.2.2 47 k).2.2 rfl
    have hpath : s.path ++ b!"/" ++ n = b!"/" ++ (d ++ b!"/" ++ n) := by rw [hp]; simp
    rw [runWords, words_entry hn.1, entry_dir ws _ _ h1 (by rw [ht]; exact h2)]
    simp only [addDir, hpath]
    rw [decide_eq_true (by rw [List.length_append]; simp only [List.length_cons, List.length_nil] at hdn ⊢; omega)]
    simp only [Res.access_true, Res.ok_bind]
    rw [runWords_append, ih1 (s := { s with path := b!"/" ++ (d ++ b!"/" ++ n), pwd := (b!"/" ++ (d ++ b!"/" ++ n)).drop 1 :: s.pwd })
      (d := d ++ b!"/" ++ n) (P := s.pwd) hn.2.1 rfl ht rfl (fun e he => hd e (by simp only [dirsIn, List.mem_cons, List.mem_append]; exact .inr (.inl he)))]
    rw [Res.ok_bind, runWords, words_up (d := d ++ b!"/" ++ n) (P := s.pwd) rfl, Res.ok_bind]
    rw [show upTo (b!"/" ++ (d ++ b!"/" ++ n)) = s.path by rw [← hpath, upTo_name hns]]
    rw [ih2 (s := { s with typeDir := t1, subjs := s.subjs ++ (full (filesIn (d ++ b!"/" ++ n) sub)).map subjOf }) (d := d) (P := P) hn.2.2 hp rfl hw (fun e he => hd e (by simp only [dirsIn, List.mem_cons, List.mem_append]; exact .inr (.inr he)))]
    simp [filesIn, full_append]

/-- Lines for no entries. -/
theorem lines_nil {t t' : Bool} {y : Tree} {ls : List (List Bytes)} (h : Lines t y ls t') : y = .nil → ∀ {s : St}, s.typeDir = t →
    runWords s ls = .ok { s with typeDir := t' } := by
  induction h with
  | nil t => intro _ s ht; rw [runWords, ← ht]
  | setNone ws h1 _ ih =>
    intro hy s ht
    rw [runWords, words_set, Res.ok_bind, set_none ws _ h1]
    exact ih hy ht
  | setFile u v h1 _ ih =>
    intro hy s ht
    rw [runWords, words_set, Res.ok_bind, set_append, setWords, if_neg (by decide), if_pos rfl, set_false v h1, ih hy (s := { s with typeDir := false }) rfl]
  | setDir u v h1 _ ih =>
    intro hy s ht
    rw [runWords, words_set, Res.ok_bind, set_append, setWords, if_pos rfl, set_true v h1, ih hy (s := { s with typeDir := true }) rfl]
  | file => intro hy; cases hy
  | other => intro hy; cases hy
  | dir => intro hy; cases hy

/-- The lines for a whole directory. -/
theorem lines_root {t t' : Bool} {x y : Tree} {ls : List (List Bytes)} (h : Lines t y ls t') : y = .dir b!"." x .nil → Named x → (∀ e ∈ dirsIn b!"." x, e.length < 4095) →
    ∀ {s : St}, s.path = [] → s.typeDir = t → s.pwd = [] →
    runWords s ls = .ok { s with typeDir := t', subjs := s.subjs ++ (full (filesIn b!"." x)).map subjOf } := by
  induction h with
  | nil t => intro hy; cases hy
  | setNone ws h1 _ ih =>
    intro hy hn hd s hp ht hw
    rw [runWords, words_set, Res.ok_bind, set_none ws _ h1]
    exact ih hy hn hd hp ht hw
  | setFile u v h1 _ ih =>
    intro hy hn hd s hp ht hw
    rw [runWords, words_set, Res.ok_bind, set_append, setWords, if_neg (by decide), if_pos rfl, set_false v h1, ih hy hn hd (s := { s with typeDir := false }) hp rfl hw]
  | setDir u v h1 _ ih =>
    intro hy hn hd s hp ht hw
    rw [runWords, words_set, Res.ok_bind, set_append, setWords, if_pos rfl, set_true v h1, ih hy hn hd (s := { s with typeDir := true }) hp rfl hw]
  | file => intro hy; cases hy
  | other => intro hy; cases hy
  | @dir t t1 t' sub rest l1 l2 n ws h1 h2 hl1 hl2 _ _ =>
    intro hy hn hd s hp ht hw
    cases hy
    rw [runWords, words_entry (by refine ⟨by decide, by decide, by decide⟩), entry_dir ws _ _ h1 (by rw [ht]; exact h2)]
    simp only [addDir, hp]
    rw [show decide (([] ++ b!"/" ++ b!"." : Bytes).length < 4096) = true by decide]
    simp only [Res.access_true, Res.ok_bind]
    rw [runWords_append, lines_ok hl1 (s := { s with path := [] ++ b!"/" ++ b!".", pwd := ([] ++ b!"/" ++ b!"." : Bytes).drop 1 :: s.pwd })
      (d := b!".") (P := s.pwd) hn rfl ht rfl hd]
    rw [Res.ok_bind, runWords, words_up (d := b!".") (P := s.pwd) rfl, Res.ok_bind]
    rw [show upTo ([] ++ b!"/" ++ b!".") = s.path by rw [hp]; decide]
    rw [lines_nil hl2 rfl rfl]
    simp only [hp]

/-- C63: whatever layout mtree chooses, and however its output is cut into reads, when the client has read all of it, it has exactly the files of the tree that
are not empty, in order, with the right paths and digests; and it has kept the output itself.  Lines have up to 8191 bytes and paths up to 4094, as mtree
prints them. -/
theorem C63_list_partial {x : Tree} {text : Bytes} (h : Output 8191 x text) (hd : ∀ e ∈ dirsIn b!"." x, e.length < 4095) (ks : List Nat) :
    ∃ s rest fin, reads ks text empty = .ok (s, rest, fin) ∧ (text.length < ks.length → fin = true) ∧
      (fin = true → rest = [] ∧ s.tmp = text ∧ s.st.subjs = (full (filesIn b!"." x)).map subjOf) := by
  obtain ⟨ls, ts, t, h1, h2, h3, rfl⟩ := h
  have hrun := lines_root h1 rfl h2 hd (s := empty.st) rfl rfl rfl
  have hall : process [] ts.flatten empty.st = .ok ([], { empty.st with typeDir := t, subjs := empty.st.subjs ++ (full (filesIn b!"." x)).map subjOf }) := by
    rw [process_text h3, hrun]; rfl
  obtain ⟨s, done, rest, fin, e1, e2, e3, e4, e5⟩ := reads_ok h3 hall ks (s := empty) (done := []) (rest := ts.flatten) rfl ⟨rfl, fun c hc => (by cases hc), rfl⟩
  refine ⟨s, rest, fin, e1, e5, fun hf => ?_⟩
  have hr := e4 hf
  subst hr
  rw [List.append_nil] at e2
  have h4 := e3.run
  rw [← e2, hall] at h4
  simp only [Res.ok.injEq, Prod.mk.injEq] at h4
  refine ⟨rfl, by rw [e3.tmp, e2], ?_⟩
  rw [← h4.2]
  rfl

/-- The file on the lists of the client. -/
def itemOf (f : File) : Stow.Item := ⟨true, f.dir ++ b!"/" ++ f.name, f.digest⟩

/-- C63: what the client has listed then is where C62 starts. -/
theorem C63_start_partial {x : Tree} {text : Bytes} (h : Output 8191 x text) (hd : ∀ e ∈ dirsIn b!"." x, e.length < 4095) (ks : List Nat) (hk : text.length < ks.length)
    (g : StowData.Cfg) (hg : g.text = text) (ack : List Stow.Item) (known : Bytes → Bool) :
    ∃ s, reads ks text empty = .ok (s, [], true) ∧ subjList g.sha s = (StowData.start g ((full (filesIn b!"." x)).map itemOf) ack known).cl.subj := by
  obtain ⟨s, rest, fin, e1, e2, e3⟩ := C63_list_partial h hd ks
  have hf := e2 hk
  obtain ⟨e4, e5, e6⟩ := e3 hf
  subst hf e4
  refine ⟨s, e1, ?_⟩
  unfold subjList StowData.start
  rw [e6, e5, hg, List.map_map]
  rfl

end Verif.Props
