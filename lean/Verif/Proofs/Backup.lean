/-
Lemmas about `silodates.txt` and the choice of the silos (utilities/select_silos.py).
-/
import Verif.Model.Backup
import Verif.Proofs.Dec
import Verif.Props.Backup

namespace Verif.Backup

/-! ## Words and lines -/

theorem wordsGo_word (w a r : Bytes) (ha : ∀ c ∈ a, isSpace c = false) (hne : w.reverse ++ a ≠ []) :
    wordsGo w (a ++ 32 :: r) = (w.reverse ++ a) :: wordsGo [] r := by
  induction a generalizing w with
  | nil =>
    have hw : w ≠ [] := by simpa using hne
    simp [wordsGo, hw, show isSpace 32 = true from by decide]
  | cons c a ih =>
    have := ih (c :: w) (fun x hx => ha x (by simp [hx])) (by simp)
    simp [wordsGo, ha c (by simp), this]

theorem wordsGo_end (w a : Bytes) (ha : ∀ c ∈ a, isSpace c = false) (hne : w.reverse ++ a ≠ []) :
    wordsGo w a = [w.reverse ++ a] := by
  induction a generalizing w with
  | nil =>
    have hw : w ≠ [] := by simpa using hne
    simp [wordsGo, hw]
  | cons c a ih =>
    have := ih (c :: w) (fun x hx => ha x (by simp [hx])) (by simp)
    simp [wordsGo, ha c (by simp), this]

theorem linesGo_line (w l r : Bytes) (hl : (10 : UInt8) ∉ l) :
    linesGo w (l ++ 10 :: r) = (w.reverse ++ l) :: linesGo [] r := by
  induction l generalizing w with
  | nil => simp [linesGo]
  | cons c l ih =>
    have hc : c ≠ 10 := fun e => hl (by simp [e])
    have := ih (c :: w) (fun h => hl (by simp [h]))
    simp [linesGo, hc, this]

theorem linesGo_flatMap {α : Type} (f : α → Bytes) (L : List α) (h : ∀ x ∈ L, (10 : UInt8) ∉ f x) :
    linesGo [] (L.flatMap (fun x => f x ++ [10])) = L.map f := by
  induction L with
  | nil => rfl
  | cons x L ih =>
    rw [List.flatMap_cons, List.append_assoc, List.singleton_append,
      linesGo_line _ _ _ (h x (by simp)), ih (fun y hy => h y (by simp [hy]))]
    rfl

/-! ## Numbers -/

theorem isDigit_notSpace {c : UInt8} (h : isDigit c = true) : isSpace c = false := by
  simp only [isDigit, Bool.and_eq_true, decide_eq_true_eq, UInt8.le_iff_toNat_le] at h
  have h1 : (48 : UInt8).toNat = 48 := rfl
  have h2 : (57 : UInt8).toNat = 57 := rfl
  have hc : ¬ c = 32 := fun e => by rw [e] at h; exact absurd h (by decide)
  have hd : ¬ c ≤ 13 := by
    rw [UInt8.le_iff_toNat_le]
    have h3 : (13 : UInt8).toNat = 13 := rfl
    omega
  simp [isSpace, hc, hd]

theorem parseInt_dec (n : Nat) : parseInt (dec n) = some n := by
  have h : dec n ≠ [] ∧ (dec n).all isDigit := ⟨dec_ne_nil n, by
    rw [List.all_eq_true]; exact dec_digits n⟩
  rw [parseInt, if_pos h]
  exact congrArg some (decVal_dec n)

set_option maxRecDepth 100000 in
theorem dec3_spec : ∀ n : Fin 1000, (dec3 n.val).all isDigit = true ∧ parseInt (dec3 n.val) = some n.val := by
  decide +kernel

theorem dec3_digits (n : Nat) (h : n < 1000) : ∀ c ∈ dec3 n, isDigit c = true :=
  List.all_eq_true.mp (dec3_spec ⟨n, h⟩).1

theorem dec3_length (n : Nat) : (dec3 n).length = 3 := rfl

/-- The text of a time. -/
def tmText (t : Nat) : Bytes := dec (t / 1000) ++ 46 :: dec3 (t % 1000)

theorem parseTm_text (t : Nat) : parseTm (tmText t) = some t := by
  have hl : (tmText t).length = (dec (t / 1000)).length + 4 := by simp [tmText, dec3]
  have hm : t % 1000 < 1000 := Nat.mod_lt _ (by decide)
  have e1 : (tmText t).length - 4 = (dec (t / 1000)).length := by omega
  have e2 : (tmText t).drop (dec (t / 1000)).length = 46 :: dec3 (t % 1000) := by
    simp [tmText]
  have e3 : (tmText t).take (dec (t / 1000)).length = dec (t / 1000) := by
    simp [tmText]
  rw [parseTm, if_neg (by omega), e1, e2, e3]
  simp only [parseInt_dec, (dec3_spec ⟨t % 1000, hm⟩).2]
  rw [Nat.mul_comm, Nat.div_add_mod]

theorem tmText_notSpace (t : Nat) : ∀ c ∈ tmText t, isSpace c = false := by
  intro c hc
  simp only [tmText, List.mem_append, List.mem_cons] at hc
  rcases hc with hc | hc | hc
  · exact isDigit_notSpace (dec_digits _ c hc)
  · subst hc; decide
  · exact isDigit_notSpace (dec3_digits _ (Nat.mod_lt _ (by decide)) c hc)

/-! ## The dictionary -/

/-- The names of the silos of a list. -/
def names (d : List Silo) : List Bytes := d.map Silo.fn

/-- What a list has under a name. -/
def entry (d : List Silo) (f : Bytes) : Silo := (d.find? (fun s => decide (s.fn = f))).getD { fn := f }

theorem entry_fn (d : List Silo) (f : Bytes) : (entry d f).fn = f := by
  rw [entry]
  cases h : d.find? (fun s => decide (s.fn = f)) with
  | none => rfl
  | some s => simpa using List.find?_some h

theorem entry_of_mem {d : List Silo} (hd : (names d).Nodup) {s : Silo} (hs : s ∈ d) :
    entry d s.fn = s := by
  induction d with
  | nil => simp at hs
  | cons a d ih =>
    simp only [names, List.map_cons, List.nodup_cons] at hd
    rcases List.mem_cons.mp hs with rfl | hs'
    · simp [entry]
    · have hne : a.fn ≠ s.fn := fun e => hd.1 (e ▸ List.mem_map_of_mem hs')
      have := ih hd.2 hs'
      simp only [entry, List.find?_cons, hne, decide_false] at this ⊢
      exact this

theorem entry_mem {d : List Silo} {f : Bytes} (h : f ∈ names d) : entry d f ∈ d := by
  rw [entry]
  cases e : d.find? (fun s => decide (s.fn = f)) with
  | none =>
    obtain ⟨s, hs, hf⟩ := List.mem_map.mp h
    have := List.find?_eq_none.mp e s hs
    simp [hf] at this
  | some s => exact List.mem_of_find?_eq_some e

theorem entry_not_mem {d : List Silo} {f : Bytes} (h : f ∉ names d) : entry d f = { fn := f } := by
  rw [entry]
  cases e : d.find? (fun s => decide (s.fn = f)) with
  | none => rfl
  | some s =>
    have h1 := List.mem_of_find?_eq_some e
    have h2 := List.find?_some e
    simp only [decide_eq_true_eq] at h2
    exact absurd (h2 ▸ List.mem_map_of_mem h1) h

theorem upd_new {f : Bytes} {g : Silo → Silo} {d : List Silo} (h : f ∉ names d) :
    upd f g d = d ++ [g { fn := f }] := by
  induction d with
  | nil => rfl
  | cons a d ih =>
    simp only [names, List.map_cons, List.mem_cons, not_or] at h
    rw [upd, if_neg (fun e => h.1 e.symm), ih h.2]
    rfl

theorem upd_names {f : Bytes} {g : Silo → Silo} (hg : ∀ s, (g s).fn = s.fn) (d : List Silo) :
    names (upd f g d) = if f ∈ names d then names d else names d ++ [f] := by
  induction d with
  | nil => simp [upd, names, hg]
  | cons a d ih =>
    by_cases h : a.fn = f
    · simp [upd, names, h, hg]
    · have h' : ¬ f = a.fn := fun e => h e.symm
      simp only [names] at ih
      simp only [upd, h, if_false, names, List.map_cons, List.mem_cons, h', false_or, ih]
      by_cases h2 : f ∈ d.map Silo.fn
      · simp [h2]
      · simp [h2]

theorem upd_nodup {f : Bytes} {g : Silo → Silo} (hg : ∀ s, (g s).fn = s.fn) {d : List Silo}
    (hd : (names d).Nodup) : (names (upd f g d)).Nodup := by
  rw [upd_names hg]
  by_cases h : f ∈ names d
  · simpa [h] using hd
  · rw [if_neg h, List.nodup_append]
    refine ⟨hd, by simp, ?_⟩
    intro a ha b hb e
    simp only [List.mem_singleton] at hb
    exact h (hb ▸ e ▸ ha)

theorem upd_mem_names {f : Bytes} {g : Silo → Silo} (hg : ∀ s, (g s).fn = s.fn) (d : List Silo)
    (n : Bytes) : n ∈ names (upd f g d) ↔ n = f ∨ n ∈ names d := by
  rw [upd_names hg]
  by_cases h : f ∈ names d
  · rw [if_pos h]
    exact ⟨Or.inr, fun h' => h'.elim (fun e => e ▸ h) id⟩
  · rw [if_neg h]
    simp [or_comm]

theorem upd_entry {f : Bytes} {g : Silo → Silo} (hg : ∀ s, (g s).fn = s.fn) (d : List Silo)
    (n : Bytes) : entry (upd f g d) n = if n = f then g (entry d f) else entry d n := by
  induction d with
  | nil =>
    by_cases h : n = f
    · subst h; simp [upd, entry, hg]
    · have h' : ¬ f = n := fun e => h e.symm
      simp [upd, entry, hg, h, h']
  | cons a d ih =>
    by_cases ha : a.fn = f
    · by_cases h : n = f
      · subst h; simp [upd, entry, hg, ha]
      · have h' : ¬ f = n := fun e => h e.symm
        simp [upd, entry, hg, h, h', ha]
    · by_cases h2 : a.fn = n
      · have h3 : ¬ n = f := fun e => ha (h2.trans e)
        simp [upd, entry, ha, h2, h3]
      · simp only [entry] at ih
        simp only [upd, entry, ha, h2, if_false, List.find?_cons, decide_false]
        exact ih

/-! ## Reading what was written -/

/-- A name that comes back from `silodates.txt`. -/
def GoodName (f : Bytes) : Prop := f ≠ [] ∧ ∀ c ∈ f, isSpace c = false

/-- The line of a silo. -/
def lineOf (s : Silo) : Bytes := s.fn ++ 32 :: tmText s.lastTm ++ 32 :: dec s.lastSz

theorem fmtSilo_eq (s : Silo) : fmtSilo s = lineOf s ++ [10] := by
  simp [fmtSilo, lineOf, tmText]

theorem notSpace_no_nl {a : Bytes} (h : ∀ c ∈ a, isSpace c = false) : (10 : UInt8) ∉ a :=
  fun hm => absurd (h 10 hm) (by decide)

theorem lineOf_no_nl (s : Silo) (h : GoodName s.fn) : (10 : UInt8) ∉ lineOf s := by
  have h1 := notSpace_no_nl h.2
  have h2 := notSpace_no_nl (tmText_notSpace s.lastTm)
  have h3 := notSpace_no_nl (fun c hc => isDigit_notSpace (dec_digits s.lastSz c hc))
  simp [lineOf, h1, h2, h3]

theorem loadLine_lineOf (s : Silo) (d : List Silo) (h : GoodName s.fn) :
    loadLine (lineOf s) d =
      .ok (upd s.fn (fun t => { t with lastTm := s.lastTm, lastSz := s.lastSz }) d) := by
  have e : words (lineOf s) = [s.fn, tmText s.lastTm, dec s.lastSz] := by
    rw [words, lineOf, List.append_assoc, List.cons_append,
      wordsGo_word _ _ _ h.2 (by simpa using h.1),
      wordsGo_word _ _ _ (tmText_notSpace _) (by simp [tmText]),
      wordsGo_end _ _ (fun c hc => isDigit_notSpace (dec_digits _ c hc))
        (by simpa using dec_ne_nil _)]
    rfl
  rw [loadLine, e]
  simp only [parseTm_text, parseInt_dec]

/-- What comes back of a silo. -/
def fresh (s : Silo) : Silo := { fn := s.fn, lastSz := s.lastSz, lastTm := s.lastTm }

theorem loadLines_map (L d : List Silo) (hL : ∀ s ∈ L, GoodName s.fn)
    (hn : (names (d ++ L)).Nodup) : loadLines (L.map lineOf) d = .ok (d ++ L.map fresh) := by
  induction L generalizing d with
  | nil => simp [loadLines]
  | cons s L ih =>
    have hs : s.fn ∉ names d := by
      simp only [names, List.map_append, List.map_cons, List.nodup_append] at hn
      intro hm
      exact hn.2.2 s.fn hm s.fn (by simp) rfl
    rw [List.map_cons, loadLines, loadLine_lineOf _ _ (hL s (by simp)), Res.ok_bind, upd_new hs]
    have := ih (d ++ [fresh s]) (fun t ht => hL t (by simp [ht])) (by
      simpa [names, fresh] using hn)
    simp only [fresh] at this
    rw [this]
    simp [fresh]

/-! ## Sorting -/

theorem insertSilo_perm (lt : Silo → Silo → Bool) (x : Silo) (l : List Silo) :
    (insertSilo lt x l).Perm (x :: l) := by
  induction l with
  | nil => exact List.Perm.refl _
  | cons y r ih =>
    rw [insertSilo]
    by_cases h : lt y x = true
    · rw [if_pos h]
      exact (List.Perm.cons y ih).trans (List.Perm.swap x y r)
    · rw [if_neg h]

theorem sortSilos_perm (lt : Silo → Silo → Bool) (l : List Silo) : (sortSilos lt l).Perm l := by
  induction l with
  | nil => exact List.Perm.refl _
  | cons x r ih => exact (insertSilo_perm lt x _).trans (List.Perm.cons x ih)

/-- No silo stands behind one that has to come later. -/
def Sorted (l : List Silo) : Prop := l.Pairwise (fun a b => before b a = false)

theorem before_iff (s t : Silo) :
    before s t = true ↔ t.change < s.change ∨ s.change = t.change ∧ s.lastTm < t.lastTm := by
  simp [before]

theorem before_false (s t : Silo) :
    before s t = false ↔ s.change ≤ t.change ∧ (s.change = t.change → t.lastTm ≤ s.lastTm) := by
  rw [← Bool.not_eq_true, before_iff]
  omega

theorem insertSilo_sorted (x : Silo) (l : List Silo) (h : Sorted l) : Sorted (insertSilo before x l) := by
  induction l with
  | nil => simp [insertSilo, Sorted]
  | cons y r ih =>
    have h' := List.pairwise_cons.mp h
    rw [insertSilo]
    by_cases hlt : before y x = true
    · rw [if_pos hlt]
      refine List.pairwise_cons.mpr ⟨?_, ih h'.2⟩
      intro z hz
      rcases List.mem_cons.mp ((insertSilo_perm before x r).mem_iff.mp hz) with rfl | hz
      · rw [before_iff] at hlt
        rw [before_false]
        omega
      · exact h'.1 z hz
    · rw [if_neg hlt]
      refine List.pairwise_cons.mpr ⟨?_, h⟩
      intro z hz
      have hyx : before y x = false := by simpa using hlt
      rcases List.mem_cons.mp hz with rfl | hz
      · exact hyx
      · have := h'.1 z hz
        rw [before_false] at this hyx ⊢
        omega

theorem sortSilos_sorted (l : List Silo) : Sorted (sortSilos before l) := by
  induction l with
  | nil => exact List.Pairwise.nil
  | cons x r ih => exact insertSilo_sorted x _ ih

/-- `silodates.txt` gives back what was written. -/
theorem load_dates (l : List Silo) (hg : ∀ s ∈ l, GoodName s.fn) (hn : (names l).Nodup) :
    load (some (dates l)) = .ok ((sortSilos nameBefore l).map fresh) := by
  have hp := sortSilos_perm nameBefore l
  have e : dates l = (sortSilos nameBefore l).flatMap (fun s => lineOf s ++ [10]) := by
    exact congrArg (fun f => List.flatMap f (sortSilos nameBefore l)) (funext fmtSilo_eq)
  have hg' : ∀ s ∈ sortSilos nameBefore l, GoodName s.fn := fun s hs => hg s (hp.mem_iff.mp hs)
  rw [load, e, linesGo_flatMap lineOf _ (fun s hs => lineOf_no_nl s (hg' s hs)),
    loadLines_map _ _ hg' (by
      rw [List.nil_append]
      exact (hp.map Silo.fn).nodup_iff.mpr hn)]
  rfl

/-! ## The walk -/

/-- The silos under `SILODIR`, as (directory, name). -/
def siloFiles (fs : List (Bytes × Bytes)) : List (Bytes × Bytes) := fs.filter (fun x => isSilo x.2)

theorem walk_nodup (W : World) (fs : List (Bytes × Bytes)) (d : List Silo) (hd : (names d).Nodup) :
    (names (walk W fs d)).Nodup := by
  induction fs generalizing d with
  | nil => exact hd
  | cons x fs ih =>
    obtain ⟨p, f⟩ := x
    rw [walk]
    by_cases h : isSilo f = true
    · rw [if_pos h]
      exact ih _ (upd_nodup (by intro _; rfl) hd)
    · rw [if_neg h]
      exact ih _ hd

theorem walk_names (W : World) (fs : List (Bytes × Bytes)) (d : List Silo) (n : Bytes) :
    n ∈ names (walk W fs d) ↔ n ∈ names d ∨ ∃ p, (p, n) ∈ siloFiles fs := by
  induction fs generalizing d with
  | nil => simp [walk, siloFiles]
  | cons x fs ih =>
    obtain ⟨p, f⟩ := x
    rw [walk]
    by_cases h : isSilo f = true
    · rw [if_pos h, ih, upd_mem_names (by intro _; rfl)]
      simp only [siloFiles, List.filter_cons, h, if_true, List.mem_cons, Prod.mk.injEq]
      constructor
      · rintro ((h1 | h1) | ⟨q, h1⟩)
        · exact Or.inr ⟨p, Or.inl ⟨rfl, h1⟩⟩
        · exact Or.inl h1
        · exact Or.inr ⟨q, Or.inr h1⟩
      · rintro (h1 | ⟨q, h1 | h1⟩)
        · exact Or.inl (Or.inr h1)
        · exact Or.inl (Or.inl h1.2)
        · exact Or.inr ⟨q, h1⟩
    · rw [if_neg h, ih]
      simp only [siloFiles, List.filter_cons, h]
      simp

theorem walk_entry_other (W : World) (fs : List (Bytes × Bytes)) (d : List Silo) (n : Bytes)
    (hn : n ∉ (siloFiles fs).map Prod.snd) : entry (walk W fs d) n = entry d n := by
  induction fs generalizing d with
  | nil => rfl
  | cons x fs ih =>
    obtain ⟨p, f⟩ := x
    rw [walk]
    by_cases h : isSilo f = true
    · simp only [siloFiles, List.filter_cons, h, if_true, List.map_cons, List.mem_cons,
        not_or] at hn
      rw [if_pos h, ih _ hn.2, upd_entry (by intro _; rfl), if_neg hn.1]
    · simp only [siloFiles, List.filter_cons, h] at hn
      rw [if_neg h]
      exact ih _ hn

theorem walk_entry (W : World) (fs : List (Bytes × Bytes)) (d : List Silo) (p n : Bytes)
    (hfs : ((siloFiles fs).map Prod.snd).Nodup) (hm : (p, n) ∈ siloFiles fs) :
    entry (walk W fs d) n =
      { entry d n with
        nowSz := W.stat (join p n), fpn := some (join p n) } := by
  induction fs generalizing d with
  | nil => simp [siloFiles] at hm
  | cons x fs ih =>
    obtain ⟨q, f⟩ := x
    rw [walk]
    by_cases h : isSilo f = true
    · rw [if_pos h]
      simp only [siloFiles, List.filter_cons, h, if_true, List.map_cons, List.nodup_cons,
        List.mem_cons, Prod.mk.injEq] at hfs hm
      rcases hm with ⟨rfl, rfl⟩ | hm
      · rw [walk_entry_other _ _ _ _ hfs.1, upd_entry (by intro _; rfl), if_pos rfl]
      · have hne : n ≠ f := by
          intro e
          subst e
          exact hfs.1 (List.mem_map_of_mem hm)
        rw [ih _ hfs.2 hm, upd_entry (by intro _; rfl), if_neg hne]
    · simp only [siloFiles, List.filter_cons, h] at hfs hm
      rw [if_neg h]
      exact ih _ hfs hm

/-! ## Staging -/

/-- The files of a silo that is staged. -/
def filesOf (E : Env) (W : World) (k : Secrets) (s : Silo) : List File :=
  match s.fpn with
  | none => []
  | some p =>
    match encryptFile E.C k p (W.read p) (join E.sdir (s.fn ++ b!".bin")) with
    | .ok fs => fs
    | _ => []

/-- The silos after they were staged, the first one as the `i`-th. -/
def mark (E : Env) : Nat → List Silo → List Silo
  | _, [] => []
  | i, s :: r => { s with lastTm := E.clk i, lastSz := s.nowSz } :: mark E (i + 1) r

/-- The size of a list of silos. -/
def total (l : List Silo) : Nat := (l.map Silo.nowSz).sum

theorem stage_ok {E : Env} {W : World} {q i : Nat} {l : List Silo} {t : Staged}
    (h : stage E W q i l = .ok t) :
    ∃ pre post, l = pre ++ post ∧ t.silos = mark E i pre ++ post ∧
      (∀ s ∈ pre, ∃ p k fs, s.fpn = some p ∧ getSecrets E.secrets = .ok k ∧
        encryptFile E.C k p (W.read p) (join E.sdir (s.fn ++ b!".bin")) = .ok fs) ∧
      (∀ k, getSecrets E.secrets = .ok k → t.files = pre.flatMap (filesOf E W k)) ∧
      (pre = [] → t.files = []) ∧
      (pre ≠ [] → q + total pre ≤ E.quota) ∧
      (∀ s r, post = s :: r → E.quota < q + total pre + s.nowSz) := by
  induction l generalizing q i t with
  | nil =>
    simp only [stage, Res.ok.injEq] at h
    subst h
    exact ⟨[], [], rfl, rfl, by simp, by simp, by simp, by simp, by simp⟩
  | cons s r ih =>
    rw [stage] at h
    by_cases hq : E.quota < q + s.nowSz
    · rw [if_pos hq, Res.ok.injEq] at h
      subst h
      refine ⟨[], s :: r, rfl, rfl, by simp, by simp, by simp, by simp, ?_⟩
      intro s' r' e
      simp only [List.cons.injEq] at e
      rw [← e.1]
      simpa [total] using hq
    · rw [if_neg hq] at h
      cases hp : s.fpn with
      | none => rw [hp] at h; simp at h
      | some p =>
        rw [hp] at h
        simp only [Res.bind_eq_ok, Res.pure_eq, Res.ok.injEq] at h
        obtain ⟨k, hk, fs, hfs, t', ht', e⟩ := h
        obtain ⟨pre, post, e1, e2, h3, h4, h5, h6, h7⟩ := ih ht'
        subst e
        refine ⟨s :: pre, post, by rw [e1]; rfl, by rw [e2]; simp [mark, hp], ?_, ?_, by simp, ?_, ?_⟩
        · intro x hx
          rcases List.mem_cons.mp hx with rfl | hx
          · exact ⟨p, k, fs, hp, hk, hfs⟩
          · exact h3 x hx
        · intro k' hk'
          have : k' = k := by rw [hk] at hk'; exact (Res.ok.inj hk').symm
          subst this
          simp only [List.flatMap_cons, filesOf, hp, hfs, h4 k' hk']
        · intro _
          have := Nat.not_lt.mp hq
          by_cases hpre : pre = []
          · subst hpre; simpa [total] using this
          · have := h6 hpre
            simp only [total, List.map_cons, List.sum_cons] at this ⊢
            omega
        · intro s' r' e
          have := h7 s' r' e
          simp only [total, List.map_cons, List.sum_cons] at this ⊢
          omega

theorem stage_total {E : Env} {W : World} {k : Secrets} (hk : getSecrets E.secrets = .ok k)
    (q i : Nat) (l : List Silo)
    (hl : ∀ s ∈ l, ∃ p, s.fpn = some p ∧ p ≠ join E.sdir (s.fn ++ b!".bin")) :
    ∃ t, stage E W q i l = .ok t := by
  induction l generalizing q i with
  | nil => exact ⟨_, rfl⟩
  | cons s r ih =>
    rw [stage]
    by_cases hq : E.quota < q + s.nowSz
    · exact ⟨_, by rw [if_pos hq]⟩
    · rw [if_neg hq]
      obtain ⟨p, hp, hne⟩ := hl s (by simp)
      obtain ⟨fs, hfs⟩ := Props.encryptFile_total E.C k p (W.read p) _ hne
      obtain ⟨t, ht⟩ := ih (q + s.nowSz) (i + 1) (fun x hx => hl x (by simp [hx]))
      rw [hp]
      simp only [hk, Res.ok_bind, hfs, ht, Res.pure_eq]
      exact ⟨_, rfl⟩

theorem mark_names (E : Env) (i : Nat) (l : List Silo) : names (mark E i l) = names l := by
  induction l generalizing i with
  | nil => rfl
  | cons s r ih =>
    have := ih (i + 1)
    simp only [names] at this
    simp [mark, names, this]

theorem mark_mem {E : Env} {i : Nat} {l : List Silo} {x : Silo} (h : x ∈ mark E i l) :
    ∃ s ∈ l, ∃ j, x = { s with
      lastTm := E.clk j, lastSz := s.nowSz } := by
  induction l generalizing i with
  | nil => simp [mark] at h
  | cons s r ih =>
    rcases List.mem_cons.mp h with h | h
    · exact ⟨s, by simp, i, h⟩
    · obtain ⟨s', hs', j, e⟩ := ih h
      exact ⟨s', by simp [hs'], j, e⟩

end Verif.Backup
