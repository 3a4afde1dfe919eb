/-
C105: filter reads its lists to the end.
-/
import Verif.Model.FilterErr
import Verif.Props.Filter

namespace Verif.Props.FilterFaults
open Verif Header Index Rsilo Getjob Filter FilterErr
open _root_.Verif.Wsilo (World)

/-! ### `fgets` -/

theorem fgets_nl {n : Nat} {l : Bytes} (h2 : (10 : UInt8) ∉ l) (h3 : l.length + 2 ≤ n) (t : Bytes) :
    fgets n (l ++ 10 :: t) = some (l ++ [10], t) := by
  unfold fgets
  rw [if_neg (by simp)]
  have ht : (l ++ 10 :: t).take (n - 1) = l ++ 10 :: t.take (n - 1 - (l.length + 1)) := by
    rw [List.take_append, List.take_of_length_le (by omega)]
    obtain ⟨k, hk⟩ : ∃ k, n - 1 - l.length = k + 1 := ⟨n - 2 - l.length, by omega⟩
    rw [hk, List.take_succ_cons]
    congr 3; omega
  simp only [ht, takeWhile_ne h2]
  rw [if_pos (by simp)]
  have e1 : (l ++ 10 :: t).take (l.length + 1) = l ++ [10] := by
    rw [List.take_append, List.take_of_length_le (by omega)]
    simp
  have e2 : (l ++ 10 :: t).drop (l.length + 1) = t := by
    rw [List.drop_append, List.drop_of_length_le (by omega)]
    simp
  rw [e1, e2]

theorem fgets_full {n : Nat} {l : Bytes} (h2 : (10 : UInt8) ∉ l) (h3 : l.length + 1 = n) (h0 : l ≠ []) (t : Bytes) :
    fgets n (l ++ t) = some (l, t) := by
  unfold fgets
  rw [if_neg (by simp [h0])]
  have ht : (l ++ t).take (n - 1) = l := by
    rw [List.take_append, List.take_of_length_le (by omega)]
    simp [show n - 1 - l.length = 0 by omega]
  simp only [ht, takeWhile_all h2]
  rw [if_neg (by omega)]
  simp

theorem fgets_rest {n : Nat} {l : Bytes} (h2 : (10 : UInt8) ∉ l) (h3 : l.length + 1 < n) (h0 : l ≠ []) :
    fgets n l = some (l, []) := by
  unfold fgets
  rw [if_neg h0]
  have ht : l.take (n - 1) = l := List.take_of_length_le (by omega)
  simp only [ht, takeWhile_all h2]
  rw [if_neg (by omega)]
  simp

/-- What comes next in a file: a line, a piece of a line that fills the buffer, or the rest of the file. -/
theorem next_piece {n : Nat} (hn : 2 ≤ n) (f : Bytes) (h0 : f ≠ []) :
    (∃ l t, f = l ++ 10 :: t ∧ (10 : UInt8) ∉ l ∧ l.length + 2 ≤ n) ∨
    (∃ l t, f = l ++ t ∧ (10 : UInt8) ∉ l ∧ l.length + 1 = n ∧ l ≠ []) ∨
    ((10 : UInt8) ∉ f ∧ f.length + 1 < n) := by
  have hsp : f.takeWhile (· ≠ 10) ++ f.dropWhile (· ≠ 10) = f := List.takeWhile_append_dropWhile
  have hno : (10 : UInt8) ∉ f.takeWhile (· ≠ 10) := by
    intro h
    have := List.all_takeWhile (p := fun x : UInt8 => decide (x ≠ 10)) (l := f)
    rw [List.all_eq_true] at this
    simpa using this 10 h
  generalize f.takeWhile (· ≠ 10) = l at hsp hno
  by_cases hl : n - 1 ≤ l.length
  · refine Or.inr (Or.inl ⟨l.take (n - 1), l.drop (n - 1) ++ f.dropWhile (· ≠ 10), ?_, ?_, ?_, ?_⟩)
    · rw [← List.append_assoc, List.take_append_drop, hsp]
    · exact fun h => hno (List.mem_of_mem_take h)
    · rw [List.length_take]; omega
    · intro h
      have : (l.take (n - 1)).length = 0 := by rw [h]; rfl
      rw [List.length_take] at this; omega
  · cases hd : f.dropWhile (· ≠ 10) with
    | nil =>
      rw [hd, List.append_nil] at hsp
      subst hsp
      exact Or.inr (Or.inr ⟨hno, by omega⟩)
    | cons a t =>
      have ha : a = 10 := by
        have := List.head?_dropWhile_not (fun x : UInt8 => decide (x ≠ 10)) f
        rw [hd] at this
        simpa using this
      subst ha
      refine Or.inl ⟨l, t, ?_, hno, by omega⟩
      rw [← hsp, hd]

theorem last_ne {l : Bytes} (h : (10 : UInt8) ∉ l) : l.getLast? ≠ some 10 := by
  intro he
  exact h (List.mem_of_getLast? he)

/-! ### One file -/

/-- What is done with a piece of the file; `k` goes on with the rest. -/
def after (pfx : Bytes) (idSize : Nat) (b : Bytes) (k : Input → Res (Option Input)) (i : Input) : Res (Option Input) := do
  Res.check (0 < (cstr b).length)
  if (cstr b).getLast? ≠ some 10 then return none
  else if (cstr b).dropLast = [] then k i
  else
    match lineId pfx idSize (cstr b).dropLast with
    | none => return none
    | some id => k (addCand i ⟨id, (cstr b).dropLast⟩)

theorem readFile_some {n fuel idSize : Nat} {pfx f b r : Bytes} (h : fgets n f = some (b, r)) (i : Input) :
    readFile n pfx idSize (fuel + 1) f i = after pfx idSize b (readFile n pfx idSize fuel r) i := by
  rw [readFile, h]; rfl

theorem readFileErr_some {n fuel idSize : Nat} {pfx b : Bytes} {f r : Src} (h : fgetsErr n f = some (b, r)) (i : Input) :
    readFileErr n pfx idSize (fuel + 1) f i = after pfx idSize b (readFileErr n pfx idSize fuel r) i := by
  rw [readFileErr, h]; rfl

theorem fgetsErr_nl {n : Nat} {l : Bytes} (h2 : (10 : UInt8) ∉ l) (h3 : l.length + 2 ≤ n) (t : Bytes) (b : Bool) :
    fgetsErr n ⟨l ++ 10 :: t, b⟩ = some (l ++ [10], ⟨t, b⟩) := by
  rw [fgetsErr, fgets_nl h2 h3]; simp

theorem fgetsErr_full {n : Nat} {l : Bytes} (h2 : (10 : UInt8) ∉ l) (h3 : l.length + 1 = n) (h0 : l ≠ []) (t : Bytes) (b : Bool) :
    fgetsErr n ⟨l ++ t, b⟩ = some (l, ⟨t, b⟩) := by
  have : ¬ l.length < n - 1 := by omega
  rw [fgetsErr, fgets_full h2 h3 h0]; simp [this]

theorem readFile_fuel {n : Nat} (hn : 2 ≤ n) (pfx : Bytes) (idSize : Nat) : ∀ (fuel fuel' : Nat) (f : Bytes) (i : Input),
    f.length < fuel → f.length < fuel' → readFile n pfx idSize fuel f i = readFile n pfx idSize fuel' f i := by
  intro fuel
  induction fuel with
  | zero => intros; omega
  | succ fuel ih =>
    intro fuel' f i h1 h2
    cases fuel' with
    | zero => omega
    | succ fuel' =>
      by_cases h0 : f = []
      · subst h0; simp [readFile, fgets]
      · have : ∃ b r, fgets n f = some (b, r) ∧ r.length < f.length := by
          rcases next_piece hn f h0 with ⟨l, t, rfl, h, h'⟩ | ⟨l, t, rfl, h, h', h''⟩ | ⟨h, h'⟩
          · exact ⟨_, _, fgets_nl h h' t, by simp; omega⟩
          · exact ⟨_, _, fgets_full h h' h'' t, by
              have := List.length_pos_iff.2 h''
              simp; omega⟩
          · exact ⟨_, _, fgets_rest h h' h0, by simpa using List.length_pos_iff.2 h0⟩
        obtain ⟨b, r, hb, hr⟩ := this
        have e : readFile n pfx idSize fuel r = readFile n pfx idSize fuel' r :=
          funext fun i => ih fuel' r i (by omega) (by omega)
        rw [readFile_some hb, readFile_some hb, e]

/-- Without an error the file is read as before. -/
theorem readFileErr_fine (n : Nat) (pfx : Bytes) (idSize : Nat) : ∀ (fuel : Nat) (f : Bytes) (i : Input),
    readFileErr n pfx idSize fuel ⟨f, false⟩ i = readFile n pfx idSize fuel f i := by
  intro fuel
  induction fuel with
  | zero => intros; rfl
  | succ fuel ih =>
    intro f i
    cases hf : fgets n f with
    | none => rw [readFileErr, readFile, fgetsErr, hf]
    | some br =>
      obtain ⟨b, r⟩ := br
      have e : readFileErr n pfx idSize fuel ⟨r, false⟩ = readFile n pfx idSize fuel r := funext fun i => ih r i
      rw [readFile_some hf, readFileErr_some (r := ⟨r, false⟩) (b := b) (by rw [fgetsErr, hf]; simp), e]

/-- With an error the file is read as one that is shorter. -/
theorem readFileErr_short {n : Nat} (hn : 2 ≤ n) (pfx : Bytes) (idSize : Nat) : ∀ (fuel : Nat) (f : Bytes), f.length < fuel →
    ∃ g, g <+: f ∧ ∀ i, readFileErr n pfx idSize fuel ⟨f, true⟩ i = readFile n pfx idSize fuel g i := by
  intro fuel
  induction fuel with
  | zero => intros; omega
  | succ fuel ih =>
    intro f hf
    by_cases h0 : f = []
    · subst h0
      exact ⟨[], List.prefix_rfl, fun i => by simp [readFileErr, fgetsErr, readFile, fgets]⟩
    · rcases next_piece hn f h0 with ⟨l, t, rfl, h, h'⟩ | ⟨l, t, rfl, h, h', h''⟩ | ⟨h, h'⟩
      · obtain ⟨g, hg, hi⟩ := ih t (by simp at hf; omega)
        refine ⟨l ++ 10 :: g, ?_, ?_⟩
        · obtain ⟨z, rfl⟩ := hg
          exact ⟨z, by simp⟩
        · intro i
          rw [readFileErr_some (fgetsErr_nl h h' t true), readFile_some (fgets_nl h h' g), funext hi]
      · obtain ⟨g, hg, hi⟩ := ih t (by
          have := List.length_pos_iff.2 h''
          simp at hf; omega)
        refine ⟨l ++ g, ?_, ?_⟩
        · obtain ⟨z, rfl⟩ := hg
          exact ⟨z, by simp⟩
        · intro i
          rw [readFileErr_some (fgetsErr_full h h' h'' t true), readFile_some (fgets_full h h' h'' g), funext hi]
      · refine ⟨[], List.nil_prefix, ?_⟩
        intro i
        rw [readFileErr, readFile, fgetsErr, fgets_rest h h' h0]
        have : f.length < n - 1 := by omega
        simp [last_ne h, this, fgets]

/-- With an error within a line, the lines before it are read, and the rest is not missed. -/
theorem readFileErr_lines {n : Nat} (hn : 2 ≤ n) (pfx : Bytes) (idSize : Nat) (lines : List Bytes) (part : Bytes)
    (hl : ∀ l ∈ lines, (10 : UInt8) ∉ l ∧ l.length + 2 ≤ n) (hp : (10 : UInt8) ∉ part) (hp' : part.length + 1 < n) :
    ∀ (fuel : Nat) (i : Input), (textOf lines ++ part).length < fuel →
      readFileErr n pfx idSize fuel ⟨textOf lines ++ part, true⟩ i = readFile n pfx idSize fuel (textOf lines) i := by
  induction lines with
  | nil =>
    intro fuel i hf
    cases fuel with
    | zero => omega
    | succ fuel =>
      by_cases h0 : part = []
      · subst h0; simp [readFileErr, fgetsErr, readFile, fgets, textOf]
      · have : part.length < n - 1 := by omega
        simp only [textOf, List.map_nil, List.flatten_nil, List.nil_append]
        rw [readFileErr, readFile, fgetsErr, fgets_rest hp hp' h0]
        simp [last_ne hp, this, fgets]
  | cons l lines ih =>
    intro fuel i hf
    obtain ⟨h, h'⟩ := hl l (by simp)
    have e : ∀ x, textOf (l :: lines) ++ x = l ++ 10 :: (textOf lines ++ x) := by intro x; simp [textOf]
    have e' : textOf (l :: lines) = l ++ 10 :: textOf lines := by simp [textOf]
    cases fuel with
    | zero => omega
    | succ fuel =>
      have ih' := fun i => ih (fun x hx => hl x (by simp [hx])) fuel i (by rw [e] at hf; simp at hf ⊢; omega)
      rw [e, e', readFileErr_some (fgetsErr_nl h h' _ true), readFile_some (fgets_nl h h' _), funext ih']

/-! ### The program -/

theorem mainFilterErr_eq {n ps : Nat} {pfx : Bytes} {idSize : Nat} {files : List Src} {gs : List Bytes}
    (h : readFilesErr n pfx idSize files ⟨[], false⟩ = readFiles n pfx idSize gs ⟨[], false⟩)
    (qs : List Elem → List Elem) (w : World) (s r v : Bool) :
    mainFilterErr n ps pfx idSize qs w s r v files = mainFilter n ps pfx idSize qs w s r v gs := by
  rw [mainFilterErr, mainFilter, h]
  rfl

/-- C105: if all lists can be read to their end, filter considers all their lines: it does what C41 says. -/
theorem C105_fine (n ps : Nat) (pfx : Bytes) (idSize : Nat) (qs : List Elem → List Elem) (w : World) (s r v : Bool) (files : List Src)
    (h : ∀ f ∈ files, f.bad = false) :
    mainFilterErr n ps pfx idSize qs w s r v files = mainFilter n ps pfx idSize qs w s r v (files.map (·.data)) := by
  apply mainFilterErr_eq
  generalize (⟨[], false⟩ : Input) = i
  induction files generalizing i with
  | nil => rfl
  | cons f fs ih =>
    have hf : f = ⟨f.data, false⟩ := by
      have := h f (by simp)
      cases f; simp_all
    rw [List.map_cons, readFilesErr, readFiles, hf, readFileErr_fine]
    have ih' := fun i => ih (fun x hx => h x (by simp [hx])) i
    simp only [ih']
    rfl

/-- The texts are beginnings of what can be read of the files, and all of it where there is no error. -/
inductive Begins : List Bytes → List Src → Prop where
  | nil : Begins [] []
  | cons {g : Bytes} {f : Src} {gs : List Bytes} {fs : List Src} :
      g <+: f.data ∧ (f.bad = false → g = f.data) → Begins gs fs → Begins (g :: gs) (f :: fs)

/-- C105: whatever lists cannot be read to their end, filter does what it does for lists that are beginnings of these: it
considers no ID that is not on the lists. -/
theorem C105_beginnings_partial {n : Nat} (hn : 2 ≤ n) (pfx : Bytes) (idSize : Nat) (files : List Src) :
    ∃ gs : List Bytes, Begins gs files ∧
      ∀ ps qs w s r v, mainFilterErr n ps pfx idSize qs w s r v files = mainFilter n ps pfx idSize qs w s r v gs := by
  have key : ∃ gs : List Bytes, Begins gs files ∧
      ∀ i, readFilesErr n pfx idSize files i = readFiles n pfx idSize gs i := by
    induction files with
    | nil => exact ⟨[], .nil, fun _ => rfl⟩
    | cons f fs ih =>
      obtain ⟨gs, h1, h2⟩ := ih
      obtain ⟨d, b⟩ := f
      cases b with
      | false =>
        refine ⟨d :: gs, .cons ⟨List.prefix_rfl, fun _ => rfl⟩ h1, ?_⟩
        intro i
        rw [readFilesErr, readFiles, readFileErr_fine]
        simp only [h2]
        rfl
      | true =>
        obtain ⟨g, hg, hi⟩ := readFileErr_short hn pfx idSize (d.length + 1) d (by omega)
        refine ⟨g :: gs, .cons ⟨hg, by simp⟩ h1, ?_⟩
        intro i
        rw [readFilesErr, readFiles, hi, readFile_fuel hn pfx idSize (d.length + 1) (g.length + 1) g i
          (by have := hg.length_le; omega) (by omega)]
        simp only [h2]
        rfl
  obtain ⟨gs, h1, h2⟩ := key
  exact ⟨gs, h1, fun ps qs w s r v => mainFilterErr_eq (h2 _) qs w s r v⟩

/-- C105 is false: an error within a line ends the list there.  The output, and the status, is the one for the list of the
lines before. -/
theorem C105_lost {n : Nat} (hn : 2 ≤ n) (ps : Nat) (pfx : Bytes) (idSize : Nat) (qs : List Elem → List Elem) (w : World) (s r v : Bool)
    (lines : List Bytes) (part : Bytes) (hl : ∀ l ∈ lines, (10 : UInt8) ∉ l ∧ l.length + 2 ≤ n)
    (hp : (10 : UInt8) ∉ part) (hp' : part.length + 1 < n) :
    mainFilterErr n ps pfx idSize qs w s r v [⟨textOf lines ++ part, true⟩] =
      mainFilter n ps pfx idSize qs w s r v [textOf lines] := by
  apply mainFilterErr_eq
  rw [readFilesErr, readFiles, readFileErr_lines hn pfx idSize lines part hl hp hp' _ _ (by simp),
    readFile_fuel hn pfx idSize ((textOf lines ++ part).length + 1) ((textOf lines).length + 1) _ _ (by simp; omega) (by omega)]
  rfl

/-- C105 is false: for a file of which nothing can be read, as a directory (EISDIR), filter does what it does for an empty
list: nothing is missing. -/
theorem C105_directory {n : Nat} (hn : 2 ≤ n) (ps : Nat) (pfx : Bytes) (idSize : Nat) (qs : List Elem → List Elem) (w : World) (s r v : Bool) :
    mainFilterErr n ps pfx idSize qs w s r v [⟨[], true⟩] = mainFilter n ps pfx idSize qs w s r v [[]] :=
  C105_lost hn ps pfx idSize qs w s r v [] [] (by simp) (by simp) (by simp; omega)

/-- Of the two IDs on the list the second cannot be read; the list is taken for one with the first alone.  A list that ends
within a line without an error is refused, and so is a line that does not fit the buffer. -/
theorem C105_counterexample :
    readFileErr 8 b!"x/" 4 100 ⟨b!"12ab\n34cd\n", false⟩ ⟨[], false⟩ =
      .ok (some ⟨[⟨b!"12ab", b!"12ab"⟩, ⟨b!"34cd", b!"34cd"⟩], false⟩) ∧
    readFileErr 8 b!"x/" 4 100 ⟨b!"12ab\n34c", true⟩ ⟨[], false⟩ = .ok (some ⟨[⟨b!"12ab", b!"12ab"⟩], false⟩) ∧
    readFileErr 8 b!"x/" 4 100 ⟨b!"12ab\n34c", false⟩ ⟨[], false⟩ = .ok none ∧
    readFileErr 8 b!"x/" 4 100 ⟨b!"12ab\n34cdefgh", true⟩ ⟨[], false⟩ = .ok none := by
  decide +kernel

example : (∀ l ∈ [b!"12ab"], (10 : UInt8) ∉ l ∧ l.length + 2 ≤ 8) ∧ (10 : UInt8) ∉ b!"34c" ∧ b!"34c".length + 1 < 8 := by
  decide

end Verif.Props.FilterFaults
