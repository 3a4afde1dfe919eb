/-
Lemmas for property C63: the reading of mtree's output.
-/
import Verif.Model.Mtree
import Verif.Spec.Mtree

namespace Verif.Mtree
open Verif
open _root_.Verif.Rsilo (cstr)
open _root_.Verif.Vnum (skipSp)
open _root_.Verif.Spec.Mtree (Tree Gap Line Text Lines Word Spaced Name Named Plain gapText wordsText filesIn dirsIn)

theorem getLast_append {a b : Bytes} (h : b ≠ []) : (a ++ b).getLast? = b.getLast? := by
  rw [List.getLast?_append]
  cases hb : b.getLast? with
  | none => exact absurd (List.getLast?_eq_none_iff.1 hb) h
  | some x => rfl

/-! ### The buffer -/

theorem process_append : ∀ (a cur b : Bytes) (s : St), process cur (a ++ b) s = (process cur a s >>= fun r => process r.1 b r.2)
  | [], cur, b, s => by simp [process]
  | c :: a, cur, b, s => by
    rw [List.cons_append, process, process]
    split
    · exact process_append a _ b s
    · split
      · exact process_append a _ b s
      · split
        · exact process_append a _ b s
        · cases interpret cur s with
          | ok s1 => simp only [Res.ok_bind]; exact process_append a _ b s1
          | fail => rfl
          | ub => rfl

theorem process_len : ∀ {a cur l : Bytes} {s s' : St}, process cur a s = .ok (l, s') → l.length ≤ cur.length + a.length
  | [], cur, l, s, s', h => by
    simp only [process, Res.ok.injEq, Prod.mk.injEq] at h
    rw [← h.1]; simp
  | c :: a, cur, l, s, s', h => by
    rw [process] at h
    split at h
    · have := process_len h
      simp only [List.length_append, List.length_cons, List.length_nil] at this ⊢
      omega
    · split at h
      · have := process_len h
        simp only [List.length_cons, List.length_nil] at this ⊢
        omega
      · split at h
        · rename_i hc _
          have := process_len h
          have hpos := List.length_pos_iff.2 hc
          simp only [List.length_append, List.length_dropLast, List.length_cons, List.length_nil] at this ⊢
          omega
        · obtain ⟨s1, -, h⟩ := Res.bind_eq_ok.1 h
          have := process_len h
          simp only [List.length_cons, List.length_nil] at this ⊢
          omega

/-- What stays in the buffer has neither newline nor NUL. -/
theorem process_clean : ∀ {a cur l : Bytes} {s s' : St}, (∀ c ∈ cur, c ≠ 10 ∧ c ≠ 0) → (0 : UInt8) ∉ a → process cur a s = .ok (l, s') → ∀ c ∈ l, c ≠ 10 ∧ c ≠ 0
  | [], cur, l, s, s', hc, _, h => by
    simp only [process, Res.ok.injEq, Prod.mk.injEq] at h
    rw [← h.1]; exact hc
  | c :: a, cur, l, s, s', hc, ha, h => by
    have ha' : (0 : UInt8) ∉ a := fun k => ha (List.mem_cons_of_mem _ k)
    have hc0 : c ≠ 0 := fun k => ha (by rw [k]; exact List.mem_cons_self)
    rw [process] at h
    split at h
    · rename_i h10
      refine process_clean ?_ ha' h
      intro x hx
      rcases List.mem_append.1 hx with hx | hx
      · exact hc x hx
      · rw [List.mem_singleton.1 hx]; exact ⟨h10, hc0⟩
    · split at h
      · exact process_clean (fun x hx => (by cases hx)) ha' h
      · split at h
        · refine process_clean ?_ ha' h
          intro x hx
          rcases List.mem_append.1 hx with hx | hx
          · exact hc x (List.dropLast_subset _ hx)
          · simp only [List.mem_cons, List.not_mem_nil, or_false, or_self] at hx
            rw [hx]; decide
        · obtain ⟨s1, -, h⟩ := Res.bind_eq_ok.1 h
          exact process_clean (fun x hx => (by cases hx)) ha' h

theorem process_noNl : ∀ (a cur b : Bytes) (s : St), (∀ c ∈ a, c ≠ 10) → process cur (a ++ b) s = process (cur ++ a) b s
  | [], cur, b, s, _ => by simp
  | c :: a, cur, b, s, h => by
    rw [List.cons_append, process, if_pos (h c (by simp)), process_noNl a _ b s (fun x hx => h x (by simp [hx]))]
    simp

/-! ### One line -/

def gapSp1 : Gap → Bytes
  | .blank => [32]
  | .tab => [9]
  | .cont => [32, 32]

def gapSp (l : List Gap) : Bytes := l.flatMap gapSp1

/-- The words with blanks in between. -/
def joined : List (Bytes × List Gap) → Bytes
  | [] => []
  | (w, g) :: l => w ++ gapSp g ++ joined l

def Blank (c : UInt8) : Prop := c = 32 ∨ c = 9

theorem gapSp_blank (g : List Gap) : ∀ c ∈ gapSp g, Blank c := by
  intro c hc
  obtain ⟨x, -, hx⟩ := List.mem_flatMap.1 hc
  cases x <;> simp only [gapSp1, List.mem_cons, List.not_mem_nil, or_false, or_self] at hx
  · exact .inl hx
  · exact .inr hx
  · exact .inl hx

theorem gapSp_nil {g : List Gap} (h : g ≠ []) : gapSp g ≠ [] := by
  cases g with
  | nil => exact absurd rfl h
  | cons a g => cases a <;> simp [gapSp, gapSp1]

theorem process_gap : ∀ (g : List Gap) (cur b : Bytes) (s : St), process cur (gapText g ++ b) s = process (cur ++ gapSp g) b s
  | [], cur, b, s => by simp [gapText, gapSp]
  | .blank :: g, cur, b, s => by
    have := process_gap g (cur ++ [32]) b s
    simp only [gapText, gapSp, List.flatMap_cons, Gap.text, gapSp1, List.append_assoc] at this ⊢
    rw [List.cons_append, List.nil_append, process, if_pos (by decide), this]
  | .tab :: g, cur, b, s => by
    have := process_gap g (cur ++ [9]) b s
    simp only [gapText, gapSp, List.flatMap_cons, Gap.text, gapSp1, List.append_assoc] at this ⊢
    rw [List.cons_append, List.nil_append, process, if_pos (by decide), this]
  | .cont :: g, cur, b, s => by
    have := process_gap g (cur ++ [32, 32]) b s
    simp only [gapText, gapSp, List.flatMap_cons, Gap.text, gapSp1, List.append_assoc] at this ⊢
    rw [List.cons_append, List.cons_append, List.nil_append, process, if_pos (by decide), process, if_neg (by decide), if_neg (by simp), if_pos (by simp),
      List.dropLast_concat, this]

theorem word_ok {w : Bytes} (h : Word w) : ∀ c ∈ w, c ≠ 10 ∧ c ≠ 0 ∧ ¬Blank c := by
  intro c hc
  obtain ⟨h1, h2⟩ := h.2 c hc
  refine ⟨?_, h2, ?_⟩
  · rintro rfl; exact absurd h1 (by decide)
  · rintro (rfl | rfl) <;> exact absurd h1 (by decide)

theorem spaced_word : ∀ {l : List (Bytes × List Gap)}, Spaced l → ∀ p ∈ l, Word p.1
  | [], _, p, hp => by cases hp
  | [(w, g)], h, p, hp => by rw [List.mem_singleton.1 hp]; exact h.1
  | (w, g) :: q :: l, h, p, hp => by
    rcases List.mem_cons.1 hp with rfl | hp
    · exact h.1
    · exact spaced_word h.2.2 p hp

theorem process_words : ∀ (l : List (Bytes × List Gap)) (cur b : Bytes) (s : St), (∀ p ∈ l, Word p.1) →
    process cur (wordsText l ++ b) s = process (cur ++ joined l) b s
  | [], cur, b, s, _ => by simp [wordsText, joined]
  | (w, g) :: l, cur, b, s, h => by
    rw [wordsText, joined, List.append_assoc, List.append_assoc, process_noNl w _ _ s (fun c hc => (word_ok (h (w, g) (by simp)) c hc).1), process_gap,
      process_words l _ b s (fun p hp => h p (by simp [hp]))]
    simp

theorem joined_last : ∀ {l : List (Bytes × List Gap)}, Spaced l → (joined l).getLast? ≠ some 92
  | [], _ => by simp [joined]
  | [(w, g)], h => by
    simp only [joined, List.append_nil]
    by_cases hg : g = []
    · rw [hg]
      simp only [gapSp, List.flatMap_nil, List.append_nil]
      exact h.2 hg
    · intro k
      rw [getLast_append (gapSp_nil hg)] at k
      rcases gapSp_blank g 92 (List.mem_of_getLast? k) with e | e <;> exact absurd e (by decide)
  | (w, g) :: q :: l, h => by
    rw [joined]
    have hne : joined (q :: l) ≠ [] := by
      have := (spaced_word h.2.2 q (by simp)).1
      obtain ⟨w', g'⟩ := q
      simp only [joined]
      intro k
      simp only [List.append_eq_nil_iff] at k
      exact this k.1.1
    rw [getLast_append hne]
    exact joined_last h.2.2

theorem process_nl {cur : Bytes} (h : cur.getLast? ≠ some 92) (rest : Bytes) (s : St) :
    process cur (10 :: rest) s = (interpret cur s >>= fun s => process [] rest s) := by
  rw [process, if_neg (by decide), if_neg h]
  split
  · rename_i hc
    rw [hc]; rfl
  · rfl

/-! ### The words of the line -/

theorem words_ne : ∀ l : Bytes, words l ≠ []
  | [] => by simp [words]
  | c :: l => by
    rw [words]
    split
    · simp
    · split <;> simp

theorem words_blank {c : UInt8} (h : Blank c) (l : Bytes) : words (c :: l) = [] :: words l := by
  rw [words, if_pos (show c = 32 ∨ c = 9 from h)]

theorem words_word : ∀ (w : Bytes) (r : Bytes), (∀ c ∈ w, ¬Blank c) → ∃ u us, words r = u :: us ∧ words (w ++ r) = (w ++ u) :: us
  | [], r, _ => by
    cases h : words r with
    | nil => exact absurd h (words_ne r)
    | cons u us => exact ⟨u, us, rfl, by simp [h]⟩
  | c :: w, r, h => by
    obtain ⟨u, us, h1, h2⟩ := words_word w r (fun x hx => h x (by simp [hx]))
    refine ⟨u, us, h1, ?_⟩
    rw [List.cons_append, words, if_neg (show ¬(c = 32 ∨ c = 9) from h c (by simp)), h2]
    rfl

def nz (l : List Bytes) : List Bytes := l.filter (fun w => w ≠ [])

theorem nz_blanks : ∀ (g r : Bytes), (∀ c ∈ g, Blank c) → nz (words (g ++ r)) = nz (words r)
  | [], r, _ => rfl
  | c :: g, r, h => by
    rw [List.cons_append, words_blank (h c (by simp)), ← nz_blanks g r (fun x hx => h x (by simp [hx]))]
    simp [nz]

theorem words_joined : ∀ {w : Bytes} {g : List Gap} {l : List (Bytes × List Gap)}, Spaced ((w, g) :: l) →
    ∃ us, words (joined ((w, g) :: l)) = w :: us ∧ nz us = l.map (·.1)
  | w, g, [], h => by
    have hw : ∀ c ∈ w, ¬Blank c := fun c hc => (word_ok h.1 c hc).2.2
    simp only [joined, List.append_nil]
    by_cases hg : g = []
    · subst hg
      obtain ⟨u, us, h1, h2⟩ := words_word w [] hw
      simp only [words, List.cons.injEq] at h1
      refine ⟨us, ?_, ?_⟩
      · simp only [gapSp, List.flatMap_nil]
        rw [h2, ← h1.1, List.append_nil]
      · rw [← h1.2]; rfl
    · have hb := gapSp_blank g
      cases hs : gapSp g with
      | nil => exact absurd hs (gapSp_nil hg)
      | cons c g' =>
        rw [hs] at hb
        obtain ⟨u, us, h1, h2⟩ := words_word w (c :: g') hw
        rw [words_blank (hb c (by simp)), List.cons.injEq] at h1
        refine ⟨us, ?_, ?_⟩
        · rw [h2, ← h1.1, List.append_nil]
        · rw [← h1.2]
          have := nz_blanks g' [] (fun x hx => hb x (by simp [hx]))
          rw [List.append_nil] at this
          rw [this]; rfl
  | w, g, (w2, g2) :: l, h => by
    have hw : ∀ c ∈ w, ¬Blank c := fun c hc => (word_ok h.1 c hc).2.2
    have hg : g ≠ [] := h.2.1
    obtain ⟨vs, i1, i2⟩ := words_joined h.2.2
    have hb := gapSp_blank g
    cases hs : gapSp g with
    | nil => exact absurd hs (gapSp_nil hg)
    | cons c g' =>
      rw [hs] at hb
      obtain ⟨u, us, h1, h2⟩ := words_word w (c :: g' ++ joined ((w2, g2) :: l)) hw
      rw [List.cons_append, words_blank (hb c (by simp)), List.cons.injEq] at h1
      refine ⟨us, ?_, ?_⟩
      · rw [joined, List.append_assoc, hs, h2, ← h1.1, List.append_nil]
      · rw [← h1.2, nz_blanks g' _ (fun x hx => hb x (by simp [hx])), i1]
        have hw2 : w2 ≠ [] := (spaced_word h.2.2 (w2, g2) (by simp)).1
        show nz (w2 :: vs) = _
        simp only [nz, List.filter_cons, hw2, ne_eq, not_false_eq_true, decide_true, if_true]
        rw [show List.filter (fun w => decide (¬w = [])) vs = nz vs from rfl, i2]
        rfl

theorem setWords_nz : ∀ (us : List Bytes) (t : Bool), setWords us t = setWords (nz us) t
  | [], _ => rfl
  | u :: us, t => by
    by_cases h : u = []
    · subst h
      rw [show nz ([] :: us) = nz us from rfl, ← setWords_nz us t]
      rfl
    · rw [show nz (u :: us) = u :: nz us by simp [nz, h], setWords, setWords, setWords_nz us]

theorem entryWords_nz : ∀ (us : List Bytes) (d : Bool) (g : Option Bytes), entryWords us d g = entryWords (nz us) d g
  | [], _, _ => rfl
  | u :: us, d, g => by
    by_cases h : u = []
    · subst h
      rw [show nz ([] :: us) = nz us from rfl, ← entryWords_nz us d g]
      rfl
    · rw [show nz (u :: us) = u :: nz us by simp [nz, h], entryWords, entryWords]
      simp only [entryWords_nz us]

theorem interpretWords_nz (s : St) (w : Bytes) (us : List Bytes) : interpretWords s (w :: us) = interpretWords s (w :: nz us) := by
  rw [interpretWords, interpretWords, setWords_nz us, entryWords_nz us]

theorem skipSp_blanks : ∀ (g r : Bytes), (∀ c ∈ g, Blank c) → skipSp (g ++ r) = skipSp r
  | [], _, _ => rfl
  | c :: g, r, h => by
    rw [List.cons_append, skipSp, if_pos, skipSp_blanks g r (fun x hx => h x (by simp [hx]))]
    rcases h c (by simp) with rfl | rfl <;> decide

/-- A line is interpreted by its words. -/
theorem interpret_line {lead : List Gap} {l : List (Bytes × List Gap)} (h : Spaced l) (s : St) :
    interpret (gapSp lead ++ joined l) s = interpretWords s (l.map (·.1)) := by
  unfold interpret
  rw [skipSp_blanks _ _ (gapSp_blank lead)]
  cases l with
  | nil => rfl
  | cons p l =>
    obtain ⟨w, g⟩ := p
    obtain ⟨us, h1, h2⟩ := words_joined h
    have hw := spaced_word h (w, g) (by simp)
    have hsk : skipSp (joined ((w, g) :: l)) = joined ((w, g) :: l) := by
      cases hww : w with
      | nil => exact absurd hww hw.1
      | cons c w' =>
        rw [joined, List.append_assoc, List.cons_append, skipSp, if_neg]
        have := (hw.2 c (by rw [hww]; simp)).1
        simp [this]
    rw [hsk, h1, interpretWords_nz, h2]
    rfl

theorem process_line {ws : List Bytes} {t : Bytes} (h : Line ws t) (rest : Bytes) (s : St) :
    process [] (t ++ rest) s = (interpretWords s ws >>= fun s => process [] rest s) := by
  obtain ⟨lead, l, hl⟩ := h
  have hlast : (gapSp lead ++ joined l).getLast? ≠ some 92 := by
    by_cases hj : joined l = []
    · rw [hj, List.append_nil]
      intro k
      rcases gapSp_blank lead 92 (List.mem_of_getLast? k) with e | e <;> exact absurd e (by decide)
    · rw [getLast_append hj]
      exact joined_last hl
  rw [List.append_assoc, List.append_assoc, process_gap, List.nil_append, process_words _ _ _ _ (spaced_word hl)]
  show process _ (10 :: rest) s = _
  rw [process_nl hlast, interpret_line hl]

/-! ### All lines -/

def runWords : St → List (List Bytes) → Res St
  | s, [] => .ok s
  | s, ws :: ls => interpretWords s ws >>= fun s => runWords s ls

theorem runWords_append : ∀ (a b : List (List Bytes)) (s : St), runWords s (a ++ b) = (runWords s a >>= fun s => runWords s b)
  | [], b, s => rfl
  | w :: a, b, s => by
    rw [List.cons_append, runWords, runWords]
    cases interpretWords s w with
    | ok s1 => exact runWords_append a b s1
    | fail => rfl
    | ub => rfl

theorem process_text {max : Nat} {ls : List (List Bytes)} {ts : List Bytes} (h : Text max ls ts) : ∀ s : St,
    process [] ts.flatten s = (runWords s ls >>= fun s => .ok ([], s)) := by
  induction h with
  | nil => intro s; rfl
  | blank h1 _ _ ih =>
    intro s
    rw [List.flatten_cons, process_line h1]
    exact ih s
  | line h1 _ _ ih =>
    intro s
    rw [List.flatten_cons, process_line h1, runWords]
    cases interpretWords s _ with
    | ok s1 => exact ih s1
    | fail => rfl
    | ub => rfl

/-- A cut of the text is at the beginning of a line or in it. -/
theorem cut_lines : ∀ {ts : List Bytes} {a b : Bytes}, ts.flatten = a ++ b → b ≠ [] → ∃ t1 t t2 x y, ts = t1 ++ t :: t2 ∧ a = t1.flatten ++ x ∧ t = x ++ y ∧ y ≠ []
  | [], a, b, h, hb => by
    have := List.append_eq_nil_iff.1 h.symm
    exact absurd this.2 hb
  | t :: ts, a, b, h, hb => by
    rw [List.flatten_cons] at h
    rcases List.append_eq_append_iff.1 h with ⟨u, h1, h2⟩ | ⟨u, h1, h2⟩
    · -- a = t ++ u
      obtain ⟨t1, t', t2, x, y, e1, e2, e3, e4⟩ := cut_lines h2 hb
      exact ⟨t :: t1, t', t2, x, y, by rw [e1]; rfl, by rw [h1, e2]; simp, e3, e4⟩
    · -- t = a ++ u, b = u ++ ts.flatten
      by_cases hu : u = []
      · subst hu
        rw [List.nil_append] at h2
        rw [List.append_nil] at h1
        have h3 : ts.flatten = [] ++ b := by rw [← h2]; rfl
        obtain ⟨t1, t', t2, x, y, e1, e2, e3, e4⟩ := cut_lines h3 hb
        refine ⟨t :: t1, t', t2, x, y, by rw [e1]; rfl, ?_, e3, e4⟩
        rw [List.flatten_cons, List.append_assoc, ← e2, List.append_nil, h1]
      · exact ⟨[], t, ts, a, u, rfl, by simp, h1, hu⟩

theorem text_split {max : Nat} : ∀ {t1 t2 : List Bytes} {ls : List (List Bytes)}, Text max ls (t1 ++ t2) → ∃ l1 l2, ls = l1 ++ l2 ∧ Text max l1 t1 ∧ Text max l2 t2
  | [], t2, ls, h => ⟨[], ls, rfl, .nil, h⟩
  | t :: t1, t2, ls, h => by
    rw [List.cons_append] at h
    cases h with
    | blank h1 h2 h3 =>
      obtain ⟨l1, l2, e, a, b⟩ := text_split h3
      exact ⟨l1, l2, e, .blank h1 h2 a, b⟩
    | line h1 h2 h3 =>
      obtain ⟨l1, l2, e, a, b⟩ := text_split h3
      exact ⟨_ :: l1, l2, by rw [e]; rfl, .line h1 h2 a, b⟩

theorem text_len {max : Nat} {ls : List (List Bytes)} {ts : List Bytes} (h : Text max ls ts) : ∀ t ∈ ts, t.length ≤ max := by
  induction h with
  | nil => intro t ht; cases ht
  | blank _ h2 _ ih => intro t ht; exact (List.mem_cons.1 ht).elim (fun e => e ▸ h2) (ih t)
  | line _ h2 _ ih => intro t ht; exact (List.mem_cons.1 ht).elim (fun e => e ▸ h2) (ih t)

theorem gapText_nul (g : List Gap) : (0 : UInt8) ∉ gapText g := by
  intro h
  obtain ⟨x, -, hx⟩ := List.mem_flatMap.1 h
  cases x <;> simp [Gap.text] at hx

theorem wordsText_nul : ∀ {l : List (Bytes × List Gap)}, (∀ p ∈ l, Word p.1) → (0 : UInt8) ∉ wordsText l
  | [], _ => by simp [wordsText]
  | (w, g) :: l, h => by
    rw [wordsText]
    simp only [List.mem_append, not_or]
    exact ⟨⟨fun k => (word_ok (h (w, g) (by simp)) 0 k).2.1 rfl, gapText_nul g⟩, wordsText_nul (fun p hp => h p (by simp [hp]))⟩

theorem line_nul {ws : List Bytes} {t : Bytes} (h : Line ws t) : (0 : UInt8) ∉ t := by
  obtain ⟨lead, l, hl⟩ := h
  simp only [List.mem_append, not_or]
  exact ⟨⟨gapText_nul lead, wordsText_nul (spaced_word hl)⟩, by decide⟩

theorem text_nul {max : Nat} {ls : List (List Bytes)} {ts : List Bytes} (h : Text max ls ts) : (0 : UInt8) ∉ ts.flatten := by
  induction h with
  | nil => simp
  | blank h1 _ _ ih => rw [List.flatten_cons, List.mem_append]; exact fun k => k.elim (line_nul h1) ih
  | line h1 _ _ ih => rw [List.flatten_cons, List.mem_append]; exact fun k => k.elim (line_nul h1) ih

/-- What is in the buffer after a part of the text is shorter than a line. -/
theorem left_len {max : Nat} {ls : List (List Bytes)} {ts : List Bytes} (h : Text max ls ts) {a b : Bytes} (hab : ts.flatten = a ++ b) (hb : b ≠ []) {s s' : St} {l : Bytes}
    (hp : process [] a s = .ok (l, s')) : l.length < max := by
  obtain ⟨t1, t, t2, x, y, e1, e2, e3, e4⟩ := cut_lines hab hb
  subst e1
  obtain ⟨l1, l2, e5, a1, a2⟩ := text_split h
  rw [e2, process_append, process_text a1] at hp
  obtain ⟨r, hr, hp⟩ := Res.bind_eq_ok.1 hp
  obtain ⟨s1, -, hr⟩ := Res.bind_eq_ok.1 hr
  cases hr
  have h1 := process_len hp
  have h2 := text_len h t (by simp)
  have h3 := congrArg List.length e3
  rw [List.length_append] at h3
  have h4 := List.length_pos_iff.2 e4
  simp only [List.length_nil] at h1
  omega

theorem cstr_of_nul {t : Bytes} (h : (0 : UInt8) ∉ t) : cstr t = t := by
  unfold cstr
  induction t with
  | nil => rfl
  | cons c t ih =>
    rw [List.takeWhile_cons, if_pos, ih (fun k => h (by simp [k]))]
    have : c ≠ 0 := fun k => h (by simp [k])
    simp [this]

/-- The state after a part of the output. -/
structure Part (st0 : St) (s : In) (done : Bytes) : Prop where
  run : process [] done st0 = .ok (s.buf, s.st)
  clean : ∀ c ∈ s.buf, c ≠ 10 ∧ c ≠ 0
  tmp : s.tmp = done

theorem piece_ok {st0 stF : St} {s : In} {done p rest : Bytes} (h : Part st0 s done) (hnul : (0 : UInt8) ∉ p)
    (hall : process [] (done ++ (p ++ rest)) st0 = .ok ([], stF)) : ∃ s', piece s p = .ok s' ∧ Part st0 s' (done ++ p) := by
  rw [process_append, h.run, Res.ok_bind, process_append] at hall
  obtain ⟨r, hr, -⟩ := Res.bind_eq_ok.1 hall
  have hnul2 : (0 : UInt8) ∉ s.buf ++ p := by
    rw [List.mem_append]
    rintro (k | k)
    · exact (h.clean 0 k).2 rfl
    · exact hnul k
  refine ⟨⟨r.2, r.1, s.tmp ++ p⟩, ?_, ?_, ?_, ?_⟩
  · unfold piece
    rw [cstr_of_nul hnul2, process_noNl s.buf [] p s.st (fun c hc => (h.clean c hc).1), List.nil_append]
    show (process s.buf p s.st >>= _) = _
    rw [hr]; rfl
  · rw [process_append, h.run]; exact hr
  · exact process_clean h.clean hnul hr
  · rw [h.tmp]

theorem reads_ok {ls : List (List Bytes)} {ts : List Bytes} (h : Text 8191 ls ts) {st0 stF : St} (hall : process [] ts.flatten st0 = .ok ([], stF)) :
    ∀ (ks : List Nat) {s : In} {done rest : Bytes}, ts.flatten = done ++ rest → Part st0 s done →
    ∃ s' done' rest' fin, reads ks rest s = .ok (s', rest', fin) ∧ ts.flatten = done' ++ rest' ∧ Part st0 s' done' ∧ (fin = true → rest' = []) ∧
      (rest.length < ks.length → fin = true)
  | [], s, done, rest, hd, hp => ⟨s, done, rest, false, rfl, hd, hp, fun k => (by cases k), fun k => absurd k (Nat.not_lt_zero _)⟩
  | k :: ks, s, done, rest, hd, hp => by
    rw [reads]
    split
    · rename_i h0
      refine ⟨s, done, rest, true, rfl, hd, hp, fun _ => ?_, fun _ => rfl⟩
      by_cases hr : rest = []
      · exact hr
      · have hl := left_len h hd hr hp.run
        have h1 := congrArg List.length h0
        have h2 := List.length_pos_iff.2 hr
        rw [List.length_take, List.length_nil] at h1
        omega
    · rename_i h0
      obtain ⟨m, hm⟩ : ∃ m, m = min (k + 1) (8191 - s.buf.length) := ⟨_, rfl⟩
      rw [← hm] at h0 ⊢
      have hnul : (0 : UInt8) ∉ rest.take m := by
        intro k
        apply text_nul h
        rw [hd]
        exact List.mem_append_right _ (List.mem_of_mem_take k)
      have e : done ++ (rest.take m ++ rest.drop m) = ts.flatten := by rw [List.take_append_drop, hd]
      obtain ⟨s1, e1, p1⟩ := piece_ok (rest := rest.drop m) hp hnul (by rw [e]; exact hall)
      obtain ⟨s', done', rest', fin, h1, h2, h3, h4, h5⟩ := reads_ok h hall ks (done := done ++ rest.take m) (rest := rest.drop m) (by rw [← e]; simp) p1
      refine ⟨s', done', rest', fin, by rw [e1]; exact h1, h2, h3, h4, fun hk => h5 ?_⟩
      rw [List.length_drop]
      rw [List.length_cons] at hk
      have : 0 < (rest.take m).length := List.length_pos_iff.2 h0
      rw [List.length_take] at this
      omega

end Verif.Mtree
