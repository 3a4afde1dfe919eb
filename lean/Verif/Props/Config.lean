/-
Property C47: the configuration file.
-/
import Verif.Model.Config
import Verif.Proofs.CStr

namespace Verif.Props
open Verif Config

/-! ### Specification: the lines of a well-formed configuration file -/

/-- White space within a line. -/
def Blanks (w : Bytes) : Prop := ∀ c ∈ w, isSpace c = true ∧ c ≠ 10

/-- An optional comment at the end of a line. -/
def comment : Option Bytes → Bytes
  | none => []
  | some c => 35 :: c

/-- One line of a configuration file, with all the freedom there is: white space, comments. -/
inductive Line where
  | blank (w : Bytes) (c : Option Bytes)
  | sect (name w : Bytes) (c : Option Bytes)
  | entry (lead name w : Bytes) (c : Option Bytes)
  | entryArg (lead name sep arg w : Bytes) (c : Option Bytes)

/-- The text of a line, without the NL. -/
def Line.text : Line → Bytes
  | .blank w c => w ++ comment c
  | .sect name w c => name ++ b!":" ++ w ++ comment c
  | .entry lead name w c => lead ++ name ++ w ++ comment c
  | .entryArg lead name sep arg w c => lead ++ name ++ sep ++ arg ++ w ++ comment c

/-- Comments do not contain NL. -/
def GoodComment (c : Option Bytes) : Prop := ∀ x, c = some x → 10 ∉ x

/-- A word: at least one character, no white space and no '#'. -/
def Word (n : Bytes) : Prop := n ≠ [] ∧ ∀ c ∈ n, isSpace c = false ∧ c ≠ 35

/-- A section name: no colon, '#' or NL, and it does not start with white space. -/
def SectName (n : Bytes) : Prop := (∀ c ∈ n, c ≠ 58 ∧ c ≠ 35 ∧ c ≠ 10) ∧ ∀ c, n.head? = some c → isSpace c = false

/-- An argument: no '#' or NL, no white space at its ends. -/
def Arg (a : Bytes) : Prop := (∀ c ∈ a, c ≠ 35 ∧ c ≠ 10) ∧
  (∃ c, a.head? = some c ∧ isSpace c = false) ∧ ∃ c, a.getLast? = some c ∧ isSpace c = false

def Line.Good : Line → Prop
  | .blank w c => Blanks w ∧ GoodComment c
  | .sect name w c => SectName name ∧ Blanks w ∧ GoodComment c
  | .entry lead name w c => Blanks lead ∧ lead ≠ [] ∧ Word name ∧ Blanks w ∧ GoodComment c
  | .entryArg lead name sep arg w c => Blanks lead ∧ lead ≠ [] ∧ Word name ∧ Blanks sep ∧ sep ≠ [] ∧ Arg arg ∧
      Blanks w ∧ GoodComment c

/-- A configuration: sections with the lines that belong to them. -/
structure SSect where
  name : Bytes
  w : Bytes
  c : Option Bytes
  body : List Line

/-- The body consists of blank lines and entries. -/
def BodyLine : Line → Prop
  | .sect .. => False
  | _ => True

/-- The entries among the lines of a section. -/
def entriesOf : List Line → List Entry
  | [] => []
  | .entry _ n _ _ :: ls => ⟨n, none⟩ :: entriesOf ls
  | .entryArg _ n _ a _ _ :: ls => ⟨n, some a⟩ :: entriesOf ls
  | _ :: ls => entriesOf ls

/-- The text of a list of lines; every line ends in NL. -/
def linesText (ls : List Line) : Bytes := (ls.map (fun l => l.text ++ [10])).flatten

def SSect.lines (s : SSect) : List Line := .sect s.name s.w s.c :: s.body

/-- The text of a configuration: some blank lines, and the sections. -/
def cfgText (intro : List Line) (cfg : List SSect) : Bytes := linesText (intro ++ (cfg.map SSect.lines).flatten)

/-- What the configuration means. -/
def cfgMeaning (cfg : List SSect) : List Section := cfg.map (fun s => ⟨s.name, entriesOf s.body⟩)

/-! ### Lemmas -/

theorem upTo_append {c : UInt8} {a b : Bytes} (h : c ∉ a) : upTo c (a ++ c :: b) = a := by
  induction a with
  | nil => simp [upTo]
  | cons x xs ih =>
    have hx : x ≠ c := fun e => h (by simp [e])
    rw [List.cons_append, upTo, if_neg hx, ih (fun hc => h (by simp [hc]))]

theorem upTo_self {c : UInt8} {a : Bytes} (h : c ∉ a) : upTo c a = a := by
  induction a with
  | nil => rfl
  | cons x xs ih =>
    have hx : x ≠ c := fun e => h (by simp [e])
    rw [upTo, if_neg hx, ih (fun hc => h (by simp [hc]))]

theorem behind_append {c : UInt8} {a b : Bytes} (h : c ∉ a) : behind c (a ++ c :: b) = b := by
  induction a with
  | nil => simp [behind]
  | cons x xs ih =>
    have hx : x ≠ c := fun e => h (by simp [e])
    rw [List.cons_append, behind, if_neg hx, ih (fun hc => h (by simp [hc]))]

theorem upTo_comment {a : Bytes} (h : 35 ∉ a) (c : Option Bytes) : upTo 35 (a ++ comment c) = a := by
  cases c with
  | none => simpa [comment] using upTo_self h
  | some x => exact upTo_append h

theorem trimRight_blanks {w : Bytes} (h : Blanks w) : trimRight w = [] := by
  induction w with
  | nil => rfl
  | cons x xs ih =>
    rw [trimRight, if_pos ⟨(h x (by simp)).1, ih (fun c hc => h c (by simp [hc]))⟩]

theorem trimRight_append {a w : Bytes} (hw : Blanks w) (ha : ∀ c, a.getLast? = some c → isSpace c = false) :
    trimRight (a ++ w) = a := by
  induction a with
  | nil => simpa using trimRight_blanks hw
  | cons x xs ih =>
    rw [List.cons_append, trimRight]
    by_cases hxs : xs = []
    · subst hxs
      have hx := ha x rfl
      rw [if_neg (by rw [hx]; simp)]
      simp [trimRight_blanks hw]
    · have := ih (fun c hc => ha c (by rw [List.getLast?_cons, hc]; rfl))
      rw [this, if_neg (by simp [hxs])]

theorem skipSpace_append {w a : Bytes} (hw : Blanks w) (ha : ∀ c, a.head? = some c → isSpace c = false) :
    skipSpace (w ++ a) = a := by
  induction w with
  | nil =>
    cases a with
    | nil => rfl
    | cons x xs => rw [List.nil_append, skipSpace, if_neg (by rw [ha x rfl]; simp)]
  | cons x xs ih =>
    rw [List.cons_append, skipSpace, if_pos (hw x (by simp)).1, ih (fun c hc => hw c (by simp [hc]))]

theorem word_append {n a : Bytes} (hn : ∀ c ∈ n, isSpace c = false)
    (ha : a = [] ∨ ∃ c r, a = c :: r ∧ isSpace c = true) : word (n ++ a) = n ∧ afterWord (n ++ a) = a := by
  induction n with
  | nil =>
    rcases ha with rfl | ⟨c, r, rfl, hc⟩
    · exact ⟨rfl, rfl⟩
    · rw [List.nil_append, word, afterWord, if_pos hc, if_pos hc]; exact ⟨rfl, rfl⟩
  | cons x xs ih =>
    have hx := hn x (by simp)
    obtain ⟨h1, h2⟩ := ih (fun c hc => hn c (by simp [hc]))
    rw [List.cons_append, word, afterWord, if_neg (by rw [hx]; simp), if_neg (by rw [hx]; simp), h1, h2]
    exact ⟨rfl, rfl⟩

theorem blanks_nomem {w : Bytes} (h : Blanks w) : 35 ∉ w ∧ 10 ∉ w ∧ 58 ∉ w := by
  refine ⟨fun hc => ?_, fun hc => ?_, fun hc => ?_⟩
  · have := (h _ hc).1; revert this; decide
  · exact (h _ hc).2 rfl
  · have := (h _ hc).1; revert this; decide

theorem comment_nonl {c : Option Bytes} (h : GoodComment c) : 10 ∉ comment c := by
  cases c with
  | none => simp [comment]
  | some x =>
    have := h x rfl
    simp only [comment, List.mem_cons, not_or]
    exact ⟨by decide, this⟩

theorem word_nomem {n : Bytes} (h : Word n) : 35 ∉ n ∧ 10 ∉ n := by
  refine ⟨fun hc => (h.2 _ hc).2 rfl, fun hc => ?_⟩
  have := (h.2 _ hc).1; revert this; decide

theorem line_nonl {l : Line} (h : l.Good) : 10 ∉ l.text := by
  cases l with
  | blank w c =>
    simp only [Line.text, List.mem_append, not_or]
    exact ⟨(blanks_nomem h.1).2.1, comment_nonl h.2⟩
  | sect name w c =>
    simp only [Line.text, List.mem_append, not_or]
    exact ⟨⟨⟨fun hc => (h.1.1 _ hc).2.2 rfl, by decide⟩, (blanks_nomem h.2.1).2.1⟩, comment_nonl h.2.2⟩
  | entry lead name w c =>
    obtain ⟨h1, h2, h3, h4, h5⟩ := h
    simp only [Line.text, List.mem_append, not_or]
    exact ⟨⟨⟨(blanks_nomem h1).2.1, (word_nomem h3).2⟩, (blanks_nomem h4).2.1⟩, comment_nonl h5⟩
  | entryArg lead name sep arg w c =>
    obtain ⟨h1, h2, h3, h4, h5, h6, h7, h8⟩ := h
    simp only [Line.text, List.mem_append, not_or]
    exact ⟨⟨⟨⟨⟨(blanks_nomem h1).2.1, (word_nomem h3).2⟩, (blanks_nomem h4).2.1⟩,
      fun hc => (h6.1 _ hc).2 rfl⟩, (blanks_nomem h7).2.1⟩, comment_nonl h8⟩

theorem addEntry_snoc (e : Entry) (scs : List Section) (s : Section) :
    addEntry e (scs ++ [s]) = scs ++ [{ s with entries := s.entries ++ [e] }] := by
  induction scs with
  | nil => rfl
  | cons a as ih =>
    cases as with
    | nil => rfl
    | cons b bs => rw [List.cons_append, List.cons_append, addEntry, ← List.cons_append, ih]; rfl

theorem parseLine_blank (scs : List Section) {w : Bytes} {c : Option Bytes} (h : (Line.blank w c).Good) :
    parseLine scs (Line.blank w c).text = (scs, none) := by
  have hl : trimRight (upTo 35 (Line.blank w c).text) = [] := by
    simp only [Line.text]
    rw [upTo_comment (blanks_nomem h.1).1, trimRight_blanks h.1]
  unfold parseLine
  simp only [hl]

theorem parseLine_sect (scs : List Section) {name w : Bytes} {c : Option Bytes} (h : (Line.sect name w c).Good)
    (hn : ∀ s ∈ scs, s.name ≠ name) :
    parseLine scs (Line.sect name w c).text = (scs ++ [⟨name, []⟩], none) := by
  obtain ⟨h1, h2, h3⟩ := h
  have hl : trimRight (upTo 35 (Line.sect name w c).text) = name ++ [58] := by
    simp only [Line.text]
    rw [upTo_comment, trimRight_append h2]
    · intro d hd
      rw [List.getLast?_append] at hd
      simp at hd
      subst hd; decide
    · simp only [List.mem_append, not_or]
      exact ⟨⟨fun hc => (h1.1 _ hc).2.1 rfl, by decide⟩, (blanks_nomem h2).1⟩
  unfold parseLine
  simp only [hl]
  have hup : upTo 58 (name ++ [58]) = name := upTo_append (fun hc => (h1.1 _ hc).1 rfl)
  have hbe : behind 58 (name ++ [58]) = [] := behind_append (fun hc => (h1.1 _ hc).1 rfl)
  have hany : (scs.any fun s => s.name == name) = false := by
    rw [List.any_eq_false]
    intro s hs
    simpa using hn s hs
  have hhead : ∃ d r, name ++ [58] = d :: r ∧ isSpace d = false := by
    cases name with
    | nil => exact ⟨58, [], rfl, by decide⟩
    | cons x xs => exact ⟨x, xs ++ [58], rfl, h1.2 x rfl⟩
  obtain ⟨d, r, hd, hs⟩ := hhead
  have hmem : 58 ∈ name ++ [58] := by simp
  rw [hd] at hup hbe hmem ⊢
  simp only [hs, hup, hbe, hany, hmem]
  simp

theorem parseLine_entry (scs : List Section) (s : Section) {l : Bytes} {e : Entry} {lead rest : Bytes}
    (hlead : Blanks lead) (hne : lead ≠ []) (hl : trimRight (upTo 35 l) = lead ++ rest) (he : parseEntry (lead ++ rest) = e) :
    parseLine (scs ++ [s]) l = (scs ++ [{ s with entries := s.entries ++ [e] }], none) := by
  unfold parseLine
  simp only [hl]
  obtain ⟨c, cs, rfl⟩ : ∃ c cs, lead = c :: cs := by
    cases lead with
    | nil => exact absurd rfl hne
    | cons c cs => exact ⟨c, cs, rfl⟩
  have hc := (hlead c (by simp)).1
  simp only [List.cons_append] at he ⊢
  rw [he]
  simp only [hc, not_true, if_false]
  rw [if_neg (by simp), addEntry_snoc]

theorem parseLine_body (scs : List Section) (s : Section) (l : Line) (h : l.Good) (hb : BodyLine l) :
    parseLine (scs ++ [s]) l.text = (scs ++ [{ s with entries := s.entries ++ entriesOf [l] }], none) := by
  cases l with
  | blank w c => rw [parseLine_blank _ h]; simp [entriesOf]
  | sect => exact absurd hb (by simp [BodyLine])
  | entry lead name w c =>
    obtain ⟨h1, h2, h3, h4, h5⟩ := h
    have hlast : ∀ d, (lead ++ name).getLast? = some d → isSpace d = false := by
      intro d hd
      rw [List.getLast?_append, List.getLast?_eq_some_getLast h3.1] at hd
      simp at hd
      subst hd
      exact (h3.2 _ (List.getLast_mem h3.1)).1
    refine parseLine_entry scs s h1 h2 (rest := name) ?_ ?_
    · simp only [Line.text]
      rw [upTo_comment, trimRight_append h4 hlast]
      simp only [List.mem_append, not_or]
      exact ⟨⟨(blanks_nomem h1).1, (word_nomem h3).1⟩, (blanks_nomem h4).1⟩
    · have hsk : skipSpace (lead ++ name) = name := skipSpace_append h1 (by
        intro d hd
        exact (h3.2 d (List.mem_of_mem_head? hd)).1)
      have hw := word_append (n := name) (a := []) (fun c hc => (h3.2 c hc).1) (Or.inl rfl)
      rw [List.append_nil] at hw
      unfold parseEntry
      simp only [hsk, hw.1, hw.2]
      simp
  | entryArg lead name sep arg w c =>
    obtain ⟨h1, h2, h3, h4, h5, h6, h7, h8⟩ := h
    obtain ⟨ha1, ⟨hc1, hh1, hs1⟩, ⟨hc2, hh2, hs2⟩⟩ := h6
    have hlast : ∀ d, (lead ++ name ++ sep ++ arg).getLast? = some d → isSpace d = false := by
      intro d hd
      rw [List.getLast?_append, hh2] at hd
      simp at hd
      subst hd
      exact hs2
    refine parseLine_entry scs s h1 h2 (rest := name ++ (sep ++ arg)) ?_ ?_
    · simp only [Line.text]
      rw [upTo_comment, trimRight_append h7 hlast]
      · simp
      · simp only [List.mem_append, not_or]
        exact ⟨⟨⟨⟨(blanks_nomem h1).1, (word_nomem h3).1⟩, (blanks_nomem h4).1⟩, fun hc => (ha1 _ hc).1 rfl⟩,
          (blanks_nomem h7).1⟩
    · have hsk : skipSpace (lead ++ (name ++ (sep ++ arg))) = name ++ (sep ++ arg) := skipSpace_append h1 (by
        intro d hd
        obtain ⟨x, xs, rfl⟩ : ∃ x xs, name = x :: xs := by
          cases name with
          | nil => exact absurd rfl h3.1
          | cons x xs => exact ⟨x, xs, rfl⟩
        simp at hd
        subst hd
        exact (h3.2 x (by simp)).1)
      obtain ⟨x, xs, hx⟩ : ∃ x xs, sep = x :: xs := by
        cases sep with
        | nil => exact absurd rfl h5
        | cons x xs => exact ⟨x, xs, rfl⟩
      have hw := word_append (n := name) (a := sep ++ arg) (fun c hc => (h3.2 c hc).1)
        (Or.inr ⟨x, xs ++ arg, by rw [hx]; rfl, (h4 x (by rw [hx]; simp)).1⟩)
      have hsk2 : skipSpace (sep ++ arg) = arg := skipSpace_append h4 (by
        intro d hd
        rw [hh1] at hd
        simp at hd
        subst hd
        exact hs1)
      unfold parseEntry
      simp only [hsk, hw.1, hw.2, hsk2]
      rw [if_neg (by rw [hx]; simp)]

theorem parseLines_cons (fuel : Nat) (scs scs' : List Section) (t rest : Bytes) (h : 10 ∉ t)
    (hp : parseLine scs t = (scs', none)) :
    parseLines (fuel + 1) scs (t ++ [10] ++ rest) = parseLines fuel scs' rest := by
  rw [parseLines, if_neg (by simp)]
  rw [List.append_assoc, List.singleton_append, upTo_append h, behind_append h, hp]
  simp

theorem parseLines_body (ls : List Line) (scs : List Section) (s : Section) (rest : Bytes)
    (hg : ∀ l ∈ ls, l.Good ∧ BodyLine l) (fuel : Nat) (hf : (linesText ls ++ rest).length < fuel) :
    ∃ fuel', rest.length < fuel' ∧ parseLines fuel (scs ++ [s]) (linesText ls ++ rest) =
      parseLines fuel' (scs ++ [{ s with entries := s.entries ++ entriesOf ls }]) rest := by
  induction ls generalizing s fuel with
  | nil => exact ⟨fuel, by simpa [linesText] using hf, by simp [linesText, entriesOf]⟩
  | cons l ls ih =>
    obtain ⟨h1, h2⟩ := hg l (by simp)
    cases fuel with
    | zero => omega
    | succ fuel =>
      have ht : linesText (l :: ls) ++ rest = l.text ++ [10] ++ (linesText ls ++ rest) := by simp [linesText]
      rw [ht] at hf ⊢
      rw [parseLines_cons _ _ _ _ _ (line_nonl h1) (parseLine_body scs s l h1 h2)]
      obtain ⟨f', hf', he⟩ := ih { s with entries := s.entries ++ entriesOf [l] } (fun x hx => hg x (by simp [hx])) fuel
        (by simp only [List.length_append, List.length_cons, List.length_nil] at hf ⊢; omega)
      refine ⟨f', hf', ?_⟩
      rw [he]
      have : entriesOf [l] ++ entriesOf ls = entriesOf (l :: ls) := by
        cases l <;> simp [entriesOf]
      simp only [List.append_assoc, this]

/-- C47: every section and entry of a well-formed configuration comes out of the parser, in order,
under its name and with its argument; blank lines, comments and white space have no effect, and no
error is reported. -/
theorem C47_parse (intro : List Line) (cfg : List SSect)
    (hi : ∀ l ∈ intro, ∃ w c, l = .blank w c ∧ l.Good)
    (hg : ∀ s ∈ cfg, (Line.sect s.name s.w s.c).Good ∧ ∀ l ∈ s.body, l.Good ∧ BodyLine l)
    (hd : cfg.Pairwise (fun a b => a.name ≠ b.name)) :
    configParse (cfgText intro cfg) = (cfgMeaning cfg, none) := by
  have hsec : ∀ (cfg : List SSect) (done : List Section) (fuel : Nat),
      (∀ s ∈ cfg, (Line.sect s.name s.w s.c).Good ∧ ∀ l ∈ s.body, l.Good ∧ BodyLine l) →
      cfg.Pairwise (fun a b => a.name ≠ b.name) → (∀ s ∈ cfg, ∀ t ∈ done, t.name ≠ s.name) →
      (linesText (cfg.map SSect.lines).flatten).length < fuel →
      parseLines fuel done (linesText (cfg.map SSect.lines).flatten) = (done ++ cfgMeaning cfg, none) := by
    intro cfg
    induction cfg with
    | nil =>
      intro done fuel _ _ _ hf
      cases fuel with
      | zero => omega
      | succ fuel => simp [parseLines, linesText, cfgMeaning]
    | cons s cfg ih =>
      intro done fuel hg hd hn hf
      rw [List.pairwise_cons] at hd
      have ht : linesText ((s :: cfg).map SSect.lines).flatten =
          (Line.sect s.name s.w s.c).text ++ [10] ++ (linesText s.body ++ linesText (cfg.map SSect.lines).flatten) := by
        simp [linesText, SSect.lines]
      rw [ht] at hf ⊢
      obtain ⟨g1, g2⟩ := hg s (by simp)
      cases fuel with
      | zero => omega
      | succ fuel =>
        rw [parseLines_cons _ _ _ _ _ (line_nonl g1) (parseLine_sect done g1 (fun t ht' => hn s (by simp) t ht'))]
        obtain ⟨f', hf', he⟩ := parseLines_body s.body done ⟨s.name, []⟩ (linesText (cfg.map SSect.lines).flatten) g2 fuel
          (by simp only [List.length_append, List.length_cons, List.length_nil] at hf ⊢; omega)
        rw [he, ih _ f' (fun x hx => hg x (by simp [hx])) hd.2 ?_ hf']
        · simp [cfgMeaning]
        · intro x hx t ht'
          rcases List.mem_append.1 ht' with h | h
          · exact hn x (by simp [hx]) t h
          · simp only [List.mem_singleton] at h
            subst h
            exact hd.1 x hx
  have hintro : ∀ (ls : List Line) (rest : Bytes) (fuel : Nat), (∀ l ∈ ls, ∃ w c, l = .blank w c ∧ l.Good) →
      (linesText ls ++ rest).length < fuel →
      ∃ f', rest.length < f' ∧ parseLines fuel [] (linesText ls ++ rest) = parseLines f' [] rest := by
    intro ls
    induction ls with
    | nil => intro rest fuel _ hf; exact ⟨fuel, by simpa [linesText] using hf, by simp [linesText]⟩
    | cons l ls ih =>
      intro rest fuel hl hf
      obtain ⟨w, c, rfl, hgl⟩ := hl l (by simp)
      cases fuel with
      | zero => omega
      | succ fuel =>
        have ht : linesText (Line.blank w c :: ls) ++ rest = (Line.blank w c).text ++ [10] ++ (linesText ls ++ rest) := by
          simp [linesText]
        rw [ht] at hf ⊢
        rw [parseLines_cons _ _ _ _ _ (line_nonl hgl) (parseLine_blank [] hgl)]
        exact ih rest fuel (fun x hx => hl x (by simp [hx]))
          (by simp only [List.length_append, List.length_cons, List.length_nil] at hf ⊢; omega)
  have ht : cfgText intro cfg = linesText intro ++ linesText (cfg.map SSect.lines).flatten := by
    simp [cfgText, linesText]
  unfold configParse
  rw [ht]
  obtain ⟨f', hf', he⟩ := hintro intro (linesText (cfg.map SSect.lines).flatten) _ hi
    (Nat.lt_succ_self _)
  rw [he, hsec cfg [] f' hg hd (by simp) hf']
  simp

/-- The names are the same, ignoring case. -/
def SameText (a b : Bytes) : Prop := a.map toLower = b.map toLower

theorem strcasecmp_beq (a b : Bytes) : (strcasecmp a b == .eq) = true ↔ SameText a b := by
  unfold SameText
  rw [beq_iff_eq]
  unfold strcasecmp
  constructor
  · exact strcmp_eq.1
  · exact strcmp_eq.2

/-- C47, lookup: if no two section names are equal up to case, then looking up an entry in a section
(both in any case) finds the argument of the first entry of that section with that name, or with the
name "*", and fails if there is no such entry; entries in other sections have no influence. -/
theorem C47_find (cfg : List Section) (hd : cfg.Pairwise (fun a b => ¬ SameText a.name b.name)) (s : Section)
    (hs : s ∈ cfg) (sect name : Bytes) (hn : SameText s.name sect) :
    configFind cfg sect name =
      (s.entries.find? (fun e => e.name = b!"*" ∨ name.map toLower = e.name.map toLower)).map (·.arg) := by
  have hsec : section? cfg sect = some s := by
    unfold section?
    induction cfg with
    | nil => cases hs
    | cons t ts ih =>
      rw [List.pairwise_cons] at hd
      by_cases ht : (strcasecmp t.name sect == .eq) = true
      · rw [List.find?_cons_of_pos (p := fun s : Section => strcasecmp s.name sect == .eq) ht]
        rcases List.mem_cons.1 hs with rfl | h
        · rfl
        · exfalso
          apply hd.1 s h
          rw [strcasecmp_beq] at ht
          unfold SameText at *
          rw [ht, hn]
      · rw [List.find?_cons_of_neg (p := fun s : Section => strcasecmp s.name sect == .eq) ht]
        rcases List.mem_cons.1 hs with rfl | h
        · exact absurd ((strcasecmp_beq _ _).2 hn) ht
        · exact ih hd.2 h
  unfold configFind
  rw [hsec]
  simp only
  congr 2
  funext e
  by_cases h1 : e.name = b!"*"
  · simp [h1]
  · have : (strcasecmp name e.name == .eq) = decide (name.map toLower = e.name.map toLower) := by
      rw [Bool.eq_iff_iff, strcasecmp_beq, decide_eq_true_eq]; rfl
    rw [this]
    simp [h1]

/-- C47, a section that is not there is reported as such. -/
theorem C47_missing_section (cfg : List Section) (sect name : Bytes) (h : ∀ s ∈ cfg, ¬ SameText s.name sect) :
    configFind cfg sect name = none ∧ ∀ a b, configGet cfg sect a b = .enoent := by
  have hsec : section? cfg sect = none := by
    unfold section?
    rw [List.find?_eq_none]
    intro s hs
    rw [strcasecmp_beq]
    exact h s hs
  unfold configFind configGet
  rw [hsec]
  exact ⟨rfl, fun _ _ => rfl⟩

/-- A configuration with comments, blank lines and different white space. -/
example :
    let intro : List Line := [.blank [] (some b!" hello: there")]
    let cfg : List SSect :=
      [⟨b!"silo.max_size", [32], none, [.blank [] none, .entry [9] b!"15k" [] (some b!"small")]⟩,
       ⟨b!"WARC-Record-ID", [], none, [.entryArg [32, 9] b!"file://x/" [32] b!"12 8" [32, 32] none]⟩]
    (∀ l ∈ intro, ∃ w c, l = .blank w c ∧ l.Good) ∧
    (∀ s ∈ cfg, (Line.sect s.name s.w s.c).Good ∧ ∀ l ∈ s.body, l.Good ∧ BodyLine l) ∧
    cfg.Pairwise (fun a b => a.name ≠ b.name) ∧
    cfgText intro cfg = b!"# hello: there\nsilo.max_size: \n\n\t15k#small\nWARC-Record-ID:\n \tfile://x/ 12 8  \n" ∧
    configFind (cfgMeaning cfg) b!"warc-record-id" b!"FILE://x/" = some (some b!"12 8") := by
  refine ⟨?_, ?_, ?_, by decide, by decide⟩
  · intro l hl
    simp only [List.mem_singleton] at hl
    subst hl
    exact ⟨_, _, rfl, by simp [Blanks], by intro x hx; cases hx; decide⟩
  · intro s hs
    simp only [List.mem_cons, List.not_mem_nil, or_false] at hs
    rcases hs with rfl | rfl
    · refine ⟨⟨⟨by decide, by decide⟩, by unfold Blanks; decide, by intro x hx; cases hx⟩, ?_⟩
      intro l hl
      simp only [List.mem_cons, List.not_mem_nil, or_false] at hl
      rcases hl with rfl | rfl
      · exact ⟨⟨by simp [Blanks], by intro x hx; cases hx⟩, trivial⟩
      · exact ⟨⟨by unfold Blanks; decide, by decide, by unfold Word; decide, by unfold Blanks; decide,
          by intro x hx; cases hx; decide⟩, trivial⟩
    · refine ⟨⟨⟨by decide, by decide⟩, by unfold Blanks; decide, by intro x hx; cases hx⟩, ?_⟩
      intro l hl
      simp only [List.mem_cons, List.not_mem_nil, or_false] at hl
      subst hl
      exact ⟨⟨by unfold Blanks; decide, by decide, by unfold Word; decide, by unfold Blanks; decide, by decide,
        ⟨by decide, ⟨49, rfl, by decide⟩, ⟨56, rfl, by decide⟩⟩, by unfold Blanks; decide,
        by intro x hx; cases hx⟩, trivial⟩
  · simp

/-- Two sections whose names differ only in case are both accepted, but lookups only see the first. -/
theorem C47_counterexample_case :
    configParse b!"a:\n x 1\nA:\n x 2\n y 3\n" =
      ([⟨b!"a", [⟨b!"x", some b!"1"⟩]⟩, ⟨b!"A", [⟨b!"x", some b!"2"⟩, ⟨b!"y", some b!"3"⟩]⟩], none) ∧
    configFind (configParse b!"a:\n x 1\nA:\n x 2\n y 3\n").1 b!"A" b!"y" = none := by decide

/-- After a parse error the configuration is used as far as it was read. -/
theorem C47_counterexample_error :
    configParse b!"a:\n x 1\noops\nb:\n y 2\n" = ([⟨b!"a", [⟨b!"x", some b!"1"⟩]⟩], some .colonTrouble) ∧
    configRead b!"a:\n x 1\noops\nb:\n y 2\n" = some [⟨b!"a", [⟨b!"x", some b!"1"⟩]⟩] := by decide

end Verif.Props
