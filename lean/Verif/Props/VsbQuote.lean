/-
C79: quoted texts (VSB_quote) can be read again.
-/
import Verif.Model.VsbQuote
import Verif.Props.Vsb

namespace Verif.Props
open Verif Vsb

/-! ## Specification: how C reads string literals (C11 6.4.4.4, 6.4.5, 5.1.1.2) -/

/-- An octal digit. -/
def octDigit (c : UInt8) : Option Nat := if 48 ≤ c ∧ c ≤ 55 then some (c.toNat - 48) else none

/-- A hexadecimal digit. -/
def hexDigit (c : UInt8) : Option Nat :=
  if 48 ≤ c ∧ c ≤ 57 then some (c.toNat - 48)
  else if 97 ≤ c ∧ c ≤ 102 then some (c.toNat - 87)
  else if 65 ≤ c ∧ c ≤ 70 then some (c.toNat - 55)
  else none

/-- The escapes of one letter. -/
def simpleEscape (c : UInt8) : Option UInt8 :=
  if c = 110 then some 10
  else if c = 114 then some 13
  else if c = 116 then some 9
  else if c = 118 then some 11
  else if c = 63 ∨ c = 92 ∨ c = 34 ∨ c = 39 then some c
  else if c = 97 then some 7
  else if c = 98 then some 8
  else if c = 102 then some 12
  else none

/-- Digits, at most `n` of them: their value and what is behind. -/
def digitsOf (digit : UInt8 → Option Nat) (base : Nat) : (n : Nat) → (acc : Nat) → Bytes → Nat × Bytes
  | 0, acc, r => (acc, r)
  | _ + 1, acc, [] => (acc, [])
  | n + 1, acc, c :: r =>
    match digit c with
    | none => (acc, c :: r)
    | some d => digitsOf digit base n (acc * base + d) r

/-- A value that has to fit in a byte. -/
def fits (n : Nat) : Option UInt8 := if n < 256 then some (UInt8.ofNat n) else none

/-- An escape sequence behind its backslash: its byte and what is behind.  An octal escape has at
    most three digits, a hexadecimal one takes all that there are. -/
def escapeOf : Bytes → Option (UInt8 × Bytes)
  | [] => none
  | c :: r =>
    match simpleEscape c with
    | some x => some (x, r)
    | none =>
      if c = 120 then
        match r with
        | [] => none
        | d :: _ =>
          if (hexDigit d).isNone then none
          else (fits (digitsOf hexDigit 16 r.length 0 r).1).map (fun x => (x, (digitsOf hexDigit 16 r.length 0 r).2))
      else if (octDigit c).isNone then none
      else (fits (digitsOf octDigit 8 3 0 (c :: r)).1).map (fun x => (x, (digitsOf octDigit 8 3 0 (c :: r)).2))

/-- What the C compiler makes of string literals with white space between them; `inside` a
    literal or not. -/
def readC : (fuel : Nat) → (inside : Bool) → Bytes → Option Bytes
  | 0, _, _ => none
  | _ + 1, false, [] => some []
  | _ + 1, true, [] => none
  | fuel + 1, false, c :: r =>
    if c = 34 then readC fuel true r
    else if isSpace c then readC fuel false r
    else none
  | fuel + 1, true, c :: r =>
    if c = 34 then readC fuel false r
    else if c = 10 then none
    else if c = 92 then
      match escapeOf r with
      | none => none
      | some (x, r') => (readC fuel true r').map (x :: ·)
    else (readC fuel true r).map (c :: ·)

/-- The same escapes in a text without quotes. -/
def readEsc : (fuel : Nat) → Bytes → Option Bytes
  | 0, _ => none
  | _ + 1, [] => some []
  | fuel + 1, c :: r =>
    if c = 92 then
      match escapeOf r with
      | none => none
      | some (x, r') => (readEsc fuel r').map (x :: ·)
    else (readEsc fuel r).map (c :: ·)

/-! ## What is put in the buffer -/

/-- The bytes of the operations. -/
def putBytes : Put → Bytes
  | .putc c => [c]
  | .bcat t => t
  | .cat t => t
  | .printf t => t

def putsBytes (l : List Put) : Bytes := (l.map putBytes).flatten

theorem putsBytes_append (a b : List Put) : putsBytes (a ++ b) = putsBytes a ++ putsBytes b := by
  simp [putsBytes]

theorem putsBytes_cons (a : Put) (b : List Put) : putsBytes (a :: b) = putBytes a ++ putsBytes b := by
  simp [putsBytes]

theorem app_flat (t u : Bytes) :
    (Text.mk t 0 false).app u = ⟨t ++ u, 0, false⟩ := by
  simp only [Text.app, Bool.false_eq_true, if_false, List.replicate_zero, List.append_nil, ite_self]

theorem cat_flat (u : Bytes) : ∀ t : Bytes,
    u.foldl (fun x c => Text.app x [c]) ⟨t, 0, false⟩ = ⟨t ++ u, 0, false⟩ := by
  induction u with
  | nil => intro t; simp
  | cons c u ih =>
    intro t
    rw [List.foldl_cons, app_flat, ih]
    simp

theorem puts_spec (l : List Put) : ∀ (s : Vsb) (t : Bytes), VInv s ⟨t, 0, false⟩ →
    ∃ s', puts s l = .ok s' ∧ VInv s' ⟨t ++ putsBytes l, 0, false⟩ := by
  induction l with
  | nil => intro s t h; exact ⟨s, rfl, by simpa [putsBytes] using h⟩
  | cons o l ih =>
    intro s t h
    have h1 : ∃ s1, put s o = .ok s1 ∧ VInv s1 ⟨t ++ putBytes o, 0, false⟩ := by
      cases o with
      | putc c =>
        obtain ⟨s1, e, h1⟩ := putByte_spec h c
        exact ⟨s1, e, by rwa [app_flat] at h1⟩
      | bcat u =>
        obtain ⟨s1, e, h1⟩ := bcat_spec h u
        refine ⟨s1, e, ?_⟩
        simp only [Text.step, app_flat] at h1
        by_cases hu : u = []
        · simpa [hu, putBytes] using h1
        · simpa [hu, putBytes] using h1
      | cat u =>
        obtain ⟨s1, e, h1⟩ := cat_spec h u
        refine ⟨s1, e, ?_⟩
        simp only [Text.step, cat_flat] at h1
        exact h1
      | printf u =>
        obtain ⟨s1, e, h1⟩ := printf_spec h u
        refine ⟨s1, e, ?_⟩
        simp only [Text.step, app_flat] at h1
        exact h1
    obtain ⟨s1, e1, h1⟩ := h1
    obtain ⟨s2, e2, h2⟩ := ih s1 _ h1
    refine ⟨s2, by simp [puts, e1, e2], ?_⟩
    rw [putsBytes_cons, ← List.append_assoc]
    exact h2

/-! ## Reading it again -/

theorem byte_cases {P : UInt8 → Prop} (h : ∀ n : Fin 256, P (UInt8.ofNat n.val)) (c : UInt8) : P c := by
  have := h ⟨c.toNat, c.toNat_lt⟩
  simpa using this

theorem oct3_read (c : UInt8) (r : Bytes) : escapeOf (oct3 c ++ r) = some (c, r) := by
  have h : ∀ n : Fin 256,
      simpleEscape (UInt8.ofNat (48 + n.val / 64)) = none ∧ UInt8.ofNat (48 + n.val / 64) ≠ 120 ∧
      octDigit (UInt8.ofNat (48 + n.val / 64)) = some (n.val / 64) ∧
      octDigit (UInt8.ofNat (48 + n.val / 8 % 8)) = some (n.val / 8 % 8) ∧
      octDigit (UInt8.ofNat (48 + n.val % 8)) = some (n.val % 8) := by decide +kernel
  obtain ⟨h1, h2, h3, h4, h5⟩ := h ⟨c.toNat, c.toNat_lt⟩
  simp only at h1 h2 h3 h4 h5
  have hv : ((0 * 8 + c.toNat / 64) * 8 + c.toNat / 8 % 8) * 8 + c.toNat % 8 = c.toNat := by omega
  have hd : digitsOf octDigit 8 3 0 (oct3 c ++ r) = (c.toNat, r) := by
    simp only [oct3, List.cons_append, List.nil_append, digitsOf, h3, h4, h5, hv]
  have he : escapeOf (oct3 c ++ r) =
      (fits (digitsOf octDigit 8 3 0 (oct3 c ++ r)).1).map
        (fun x => (x, (digitsOf octDigit 8 3 0 (oct3 c ++ r)).2)) := by
    simp only [oct3, List.cons_append, List.nil_append, escapeOf, h1, if_neg h2, h3, Option.isNone_some,
      Bool.false_eq_true, if_false]
  rw [he, hd]
  simp [fits, c.toNat_lt]

/-- Quoting that can be undone: not unsafe, not hexadecimal. -/
structure PlainHow (how : How) : Prop where
  hex : how.hex = false
  unsafe_ : how.unsafe_ = false
  eschex : how.eschex = false
  nonl : how.nonl = false

/-- What stands for one byte is read as that byte, inside of a literal. -/
theorem readC_byte {how : How} (hp : PlainHow how) (hc : how.cstr = true) {pfx : Bytes}
    (hs : ∀ c ∈ pfx, isSpace c = true ∧ c ≠ 34) (c : UInt8) (r : Bytes) (fuel : Nat) :
    readC ((pfx.length + 4) + fuel) true (putsBytes (quoteByte pfx how c) ++ r) =
      (readC ((pfx.length + 4) + fuel - (if c = 10 then pfx.length + 4 else 1)) true r).map (c :: ·) := by
  have hskip : ∀ (p : Bytes) (k : Nat) (q : Bytes), (∀ c ∈ p, isSpace c = true ∧ c ≠ 34) →
      readC (p.length + k) false (p ++ q) = readC k false q := by
    intro p
    induction p with
    | nil => intro k q _; simp
    | cons x p ih =>
      intro k q hx
      have h1 := hx x (by simp)
      rw [List.length_cons, show p.length + 1 + k = p.length + k + 1 from by omega, List.cons_append, readC,
        if_neg h1.2, if_pos h1.1]
      exact ih k q (fun y hy => hx y (by simp [hy]))
  have hesc : ∀ (x y : UInt8) (k : Nat), simpleEscape y = some x →
      readC (k + 1) true (92 :: y :: r) = (readC k true r).map (x :: ·) := by
    intro x y k h
    rw [readC, if_neg (by decide), if_neg (by decide), if_pos rfl]
    simp [escapeOf, h]
  have hplain : ∀ k : Nat, c ≠ 34 → c ≠ 10 → c ≠ 92 → readC (k + 1) true (c :: r) = (readC k true r).map (c :: ·) := by
    intro k h1 h2 h3
    rw [readC, if_neg h1, if_neg h2, if_neg h3]
  obtain ⟨k, hk⟩ : ∃ k, (pfx.length + 4) + fuel = k + 1 := ⟨pfx.length + 3 + fuel, by omega⟩
  by_cases h10 : c = 10
  · subst h10
    have e : putsBytes (quoteByte pfx how 10) = b!"\\n\"\n" ++ pfx ++ b!"\"" := by
      simp [quoteByte, hc, putsBytes, putBytes]
    rw [e, if_pos rfl, show pfx.length + 4 + fuel - (pfx.length + 4) = fuel from by omega]
    rw [show pfx.length + 4 + fuel = (pfx.length + (fuel + 1)) + 1 + 1 + 1 from by omega]
    show readC _ true (92 :: 110 :: 34 :: 10 :: ((pfx ++ [34]) ++ r)) = _
    rw [readC, if_neg (by decide), if_neg (by decide), if_pos rfl]
    have h1 : escapeOf (110 :: 34 :: 10 :: ((pfx ++ [34]) ++ r)) = some (10, 34 :: 10 :: ((pfx ++ [34]) ++ r)) := by
      simp [escapeOf, simpleEscape]
    rw [h1]
    simp only
    rw [readC, if_pos rfl, readC, if_neg (by decide), if_pos (by decide), List.append_assoc, hskip pfx _ _ hs]
    show Option.map _ (readC (fuel + 1) false (34 :: r)) = _
    rw [readC, if_pos rfl]
  · rw [if_neg h10, hk, show k + 1 - 1 = k from rfl]
    by_cases h63 : c = 63
    · subst h63
      have e : putsBytes (quoteByte pfx how 63) = [92, 63] := by simp [quoteByte, hc, putsBytes, putBytes]
      rw [e]
      exact hesc 63 63 k (by decide)
    by_cases h32 : c = 32
    · subst h32
      have e : putsBytes (quoteByte pfx how 32) = [32] := by simp [quoteByte, putsBytes, putBytes]
      rw [e]
      exact hplain k (by decide) (by decide) (by decide)
    by_cases hq : c = 92 ∨ c = 34
    · have e : putsBytes (quoteByte pfx how c) = [92, c] := by
        simp [quoteByte, h63, h32, hq, hp.unsafe_, putsBytes, putBytes]
      rw [e]
      exact hesc c c k (by rcases hq with rfl | rfl <;> decide)
    by_cases h13 : c = 13
    · subst h13
      have e : putsBytes (quoteByte pfx how 13) = [92, 114] := by simp [quoteByte, putsBytes, putBytes]
      rw [e]
      exact hesc 13 114 k (by decide)
    by_cases h9 : c = 9
    · subst h9
      have e : putsBytes (quoteByte pfx how 9) = [92, 116] := by simp [quoteByte, putsBytes, putBytes]
      rw [e]
      exact hesc 9 116 k (by decide)
    by_cases h11 : c = 11
    · subst h11
      have e : putsBytes (quoteByte pfx how 11) = [92, 118] := by simp [quoteByte, putsBytes, putBytes]
      rw [e]
      exact hesc 11 118 k (by decide)
    have hq1 : c ≠ 92 := fun h => hq (Or.inl h)
    have hq2 : c ≠ 34 := fun h => hq (Or.inr h)
    by_cases hg : isGraph c = true
    · have e : putsBytes (quoteByte pfx how c) = [c] := by
        simp [quoteByte, h63, h32, hq1, hq2, h10, h13, h9, h11, hg, putsBytes, putBytes]
      rw [e]
      exact hplain k hq2 h10 hq1
    · have e : putsBytes (quoteByte pfx how c) = 92 :: oct3 c := by
        simp [quoteByte, h63, h32, hq1, hq2, h10, h13, h9, h11, hg, hp.eschex, putsBytes, putBytes]
      rw [e]
      show readC (k + 1) true (92 :: (oct3 c ++ r)) = _
      rw [readC, if_neg (by decide), if_neg (by decide), if_pos rfl, oct3_read]

theorem loop_nl {how : How} (hp : PlainHow how) (pfx : Bytes) (v : Bytes) :
    (quoteLoop pfx how false v).2 = false ∧
    putsBytes (quoteLoop pfx how false v).1 = (v.map (fun c => putsBytes (quoteByte pfx how c))).flatten := by
  have hn : ∀ c, newLine how c = false := by
    intro c
    simp [newLine, hp.nonl, hp.unsafe_]
  induction v with
  | nil => exact ⟨rfl, rfl⟩
  | cons c v ih =>
    rw [quoteLoop, hn]
    exact ⟨ih.1, by simp only [Bool.false_eq_true, if_false, List.nil_append, putsBytes_append, ih.2,
      List.map_cons, List.flatten_cons]⟩

/-- The steps that reading takes. -/
def costC (pfx v : Bytes) : Nat := v.length * (pfx.length + 4)

theorem readC_loop {how : How} (hp : PlainHow how) (hc : how.cstr = true) {pfx : Bytes}
    (hs : ∀ c ∈ pfx, isSpace c = true ∧ c ≠ 34) (v : Bytes) : ∀ fuel, costC pfx v + 2 ≤ fuel →
    readC fuel true ((v.map (fun c => putsBytes (quoteByte pfx how c))).flatten ++ [34]) = some v := by
  induction v with
  | nil =>
    intro fuel hf
    obtain ⟨k, rfl⟩ : ∃ k, fuel = k + 2 := ⟨fuel - 2, by omega⟩
    rfl
  | cons c v ih =>
    intro fuel hf
    have hcost : costC pfx (c :: v) = costC pfx v + (pfx.length + 4) := by
      simp [costC, Nat.succ_mul]
    obtain ⟨k, rfl⟩ : ∃ k, fuel = (pfx.length + 4) + k := ⟨fuel - (pfx.length + 4), by omega⟩
    rw [List.map_cons, List.flatten_cons, List.append_assoc, readC_byte hp hc hs, ih]
    · rfl
    · split <;> omega

/-- C79.  Any bytes, quoted as C strings (VSB_QUOTE_CSTR) behind any indentation: a C compiler
    makes the same bytes of it.  The buffer is fine. -/
theorem C79_cstr (pfx v : Bytes) (hs : ∀ c ∈ pfx, isSpace c = true ∧ c ≠ 34) (s : Vsb) (t : Bytes)
    (h : VInv s ⟨t, 0, false⟩) :
    ∃ s' q, quotePfx s pfx v { cstr := true } = .ok s' ∧ VInv s' ⟨t ++ q, 0, false⟩ ∧
      ∃ fuel, readC fuel false q = some v := by
  obtain ⟨s', e, h'⟩ := puts_spec (quotePuts pfx v { cstr := true }) s t h
  refine ⟨s', _, e, h', ?_⟩
  have hskip : ∀ (p : Bytes) (k : Nat) (q : Bytes), (∀ c ∈ p, isSpace c = true ∧ c ≠ 34) →
      readC (p.length + k) false (p ++ q) = readC k false q := by
    intro p
    induction p with
    | nil => intro k q _; simp
    | cons x p ih =>
      intro k q hx
      have h1 := hx x (by simp)
      rw [List.length_cons, show p.length + 1 + k = p.length + k + 1 from by omega, List.cons_append, readC,
        if_neg h1.2, if_pos h1.1]
      exact ih k q (fun y hy => hx y (by simp [hy]))
  by_cases hv : v = []
  · subst hv
    refine ⟨pfx.length + 3, ?_⟩
    have e : putsBytes (quotePuts pfx [] { cstr := true }) = pfx ++ b!"\"\"" := by
      simp [quotePuts, putsBytes, putBytes]
    rw [e, hskip pfx _ _ hs]
    rfl
  · have hp : PlainHow { cstr := true } := ⟨rfl, rfl, rfl, rfl⟩
    obtain ⟨l1, l2⟩ := loop_nl hp pfx v
    have e : putsBytes (quotePuts pfx v { cstr := true }) =
        pfx ++ (34 :: ((v.map (fun c => putsBytes (quoteByte pfx { cstr := true } c))).flatten ++ [34])) := by
      rw [quotePuts, if_neg hv]
      simp [putsBytes_append, putsBytes_cons, l2, putBytes]
      rfl
    refine ⟨pfx.length + ((costC pfx v + 2) + 1), ?_⟩
    rw [e, hskip pfx _ _ hs, readC, if_pos rfl]
    exact readC_loop hp rfl hs v _ (Nat.le_refl _)

/-- Without quotes, what stands for one byte is read as that byte. -/
theorem readEsc_byte {how : How} (hp : PlainHow how) (hc : how.cstr = false) (pfx : Bytes) (c : UInt8) (r : Bytes)
    (k : Nat) : readEsc (k + 1) (putsBytes (quoteByte pfx how c) ++ r) = (readEsc k r).map (c :: ·) := by
  have hesc : ∀ (x y : UInt8), simpleEscape y = some x →
      readEsc (k + 1) (92 :: y :: r) = (readEsc k r).map (x :: ·) := by
    intro x y h
    rw [readEsc, if_pos rfl]
    simp [escapeOf, h]
  have hplain : c ≠ 92 → readEsc (k + 1) (c :: r) = (readEsc k r).map (c :: ·) := by
    intro h3
    rw [readEsc, if_neg h3]
  by_cases h10 : c = 10
  · subst h10
    have e : putsBytes (quoteByte pfx how 10) = [92, 110] := by
      simp [quoteByte, hc, hp.nonl, hp.unsafe_, putsBytes, putBytes]
    rw [e]
    exact hesc 10 110 (by decide)
  by_cases h63 : c = 63
  · subst h63
    have e : putsBytes (quoteByte pfx how 63) = [63] := by simp [quoteByte, hc, putsBytes, putBytes]
    rw [e]
    exact hplain (by decide)
  by_cases h32 : c = 32
  · subst h32
    have e : putsBytes (quoteByte pfx how 32) = [32] := by simp [quoteByte, putsBytes, putBytes]
    rw [e]
    exact hplain (by decide)
  by_cases hq : c = 92 ∨ c = 34
  · have e : putsBytes (quoteByte pfx how c) = [92, c] := by
      simp [quoteByte, h63, h32, hq, hp.unsafe_, putsBytes, putBytes]
    rw [e]
    exact hesc c c (by rcases hq with rfl | rfl <;> decide)
  by_cases h13 : c = 13
  · subst h13
    have e : putsBytes (quoteByte pfx how 13) = [92, 114] := by simp [quoteByte, putsBytes, putBytes]
    rw [e]
    exact hesc 13 114 (by decide)
  by_cases h9 : c = 9
  · subst h9
    have e : putsBytes (quoteByte pfx how 9) = [92, 116] := by simp [quoteByte, putsBytes, putBytes]
    rw [e]
    exact hesc 9 116 (by decide)
  by_cases h11 : c = 11
  · subst h11
    have e : putsBytes (quoteByte pfx how 11) = [92, 118] := by simp [quoteByte, putsBytes, putBytes]
    rw [e]
    exact hesc 11 118 (by decide)
  have hq1 : c ≠ 92 := fun h => hq (Or.inl h)
  have hq2 : c ≠ 34 := fun h => hq (Or.inr h)
  by_cases hg : isGraph c = true
  · have e : putsBytes (quoteByte pfx how c) = [c] := by
      simp [quoteByte, h63, h32, hq1, hq2, h10, h13, h9, h11, hg, putsBytes, putBytes]
    rw [e]
    exact hplain hq1
  · have e : putsBytes (quoteByte pfx how c) = 92 :: oct3 c := by
      simp [quoteByte, h63, h32, hq1, hq2, h10, h13, h9, h11, hg, hp.eschex, putsBytes, putBytes]
    rw [e]
    show readEsc (k + 1) (92 :: (oct3 c ++ r)) = _
    rw [readEsc, if_pos rfl, oct3_read]

/-- C79.  Any bytes, quoted in the plain way (`how` = 0): undoing the escapes gives them back.
    There is only one line of printable characters, so that the text can go in a log. -/
theorem C79_plain (v : Bytes) (s : Vsb) (t : Bytes) (h : VInv s ⟨t, 0, false⟩) :
    ∃ s' q, quote s v {} = .ok s' ∧ VInv s' ⟨t ++ q, 0, false⟩ ∧ (∃ fuel, readEsc fuel q = some v) ∧
      ∀ c ∈ q, c = 32 ∨ isGraph c = true := by
  obtain ⟨s', e, h'⟩ := puts_spec (quotePuts [] v {}) s t h
  refine ⟨s', _, e, h', ?_⟩
  have hp : PlainHow {} := ⟨rfl, rfl, rfl, rfl⟩
  have hloop : ∀ v : Bytes, readEsc (v.length + 1) ((v.map (fun c => putsBytes (quoteByte [] {} c))).flatten) = some v := by
    intro v
    induction v with
    | nil => rfl
    | cons c v ih =>
      rw [List.map_cons, List.flatten_cons, List.length_cons, readEsc_byte hp rfl, ih]
      rfl
  by_cases hv : v = []
  · subst hv
    exact ⟨⟨1, rfl⟩, by simp [quotePuts, putsBytes]⟩
  · by_cases hn : needsQuote v = true
    · have e : putsBytes (quotePuts [] v {}) = (v.map (fun c => putsBytes (quoteByte [] {} c))).flatten := by
        rw [quotePuts, if_neg hv]
        simp [hn, putsBytes_cons, (loop_nl hp [] v).2, putBytes]
      rw [e]
      refine ⟨⟨_, hloop v⟩, ?_⟩
      intro c hc
      rw [List.mem_flatten] at hc
      obtain ⟨l, hl, hc⟩ := hc
      rw [List.mem_map] at hl
      obtain ⟨x, _, rfl⟩ := hl
      have key : ∀ n : Fin 256, ∀ c ∈ putsBytes (quoteByte [] {} (UInt8.ofNat n.val)), c = 32 ∨ isGraph c = true := by
        decide +kernel
      exact byte_cases (P := fun x => ∀ c ∈ putsBytes (quoteByte [] {} x), c = 32 ∨ isGraph c = true) key x c hc
    · have hn' : needsQuote v = false := by simpa using hn
      have e2 : putsBytes (quotePuts [] v {}) = v := by
        rw [quotePuts, if_neg hv]
        simp [hn', putsBytes_cons, putsBytes, putBytes]
      rw [e2]
      rw [needsQuote, List.any_eq_false] at hn'
      have hg : ∀ c ∈ v, isGraph c = true ∧ c ≠ 92 := by
        intro c hc
        have := hn' c hc
        simp at this
        exact ⟨this.1.1, this.2⟩
      refine ⟨⟨v.length + 1, ?_⟩, fun c hc => Or.inr (hg c hc).1⟩
      clear e h' hn hn' hv e2
      induction v with
      | nil => rfl
      | cons c v ih =>
        rw [List.length_cons, readEsc, if_neg (hg c (by simp)).2]
        simp [ih (fun x hx => hg x (by simp [hx]))]

/-- Hexadecimal digits in pairs. -/
def readHex : Bytes → Option Bytes
  | [] => some []
  | [_] => none
  | a :: b :: r =>
    match hexDigit a, hexDigit b with
    | some x, some y => (readHex r).map (UInt8.ofNat (16 * x + y) :: ·)
    | _, _ => none

/-- C79.  In hexadecimal, all bytes are there, unless there are more than four of them and all are
    zero. -/
theorem C79_hex (v : Bytes) (hv : v ≠ []) (hz : v.length ≤ 4 ∨ ∃ c ∈ v, c ≠ 0) (s : Vsb) (t : Bytes)
    (h : VInv s ⟨t, 0, false⟩) :
    ∃ s' q, quote s v { hex := true } = .ok s' ∧ VInv s' ⟨t ++ (b!"0x" ++ q), 0, false⟩ ∧ readHex q = some v := by
  obtain ⟨s', e, h'⟩ := puts_spec (quotePuts [] v { hex := true }) s t h
  have hzz : (v.all (· == 0) && decide (4 < v.length)) = false := by
    rcases hz with hz | ⟨c, hc, h0⟩
    · have : decide (4 < v.length) = false := by simpa using hz
      simp [this]
    · have : v.all (· == 0) = false := by
        rw [List.all_eq_false]
        exact ⟨c, hc, by simpa using h0⟩
      simp [this]
  have eq : putsBytes (quotePuts [] v { hex := true }) = b!"0x" ++ (v.map hex2).flatten := by
    rw [quotePuts, if_neg hv, if_pos rfl, hzz]
    simp only [Bool.false_eq_true, if_false, putsBytes_cons, putBytes, List.nil_append]
    congr 1
    simp only [putsBytes, List.map_map]
    rfl
  rw [eq] at h'
  refine ⟨s', _, e, h', ?_⟩
  clear hz hzz eq h' hv e
  induction v with
  | nil => rfl
  | cons c v ih =>
    have key : ∀ n : Fin 256, hexDigit (hexLc (n.val / 16)) = some (n.val / 16) ∧
        hexDigit (hexLc (n.val % 16)) = some (n.val % 16) := by decide +kernel
    obtain ⟨k1, k2⟩ := key ⟨c.toNat, c.toNat_lt⟩
    simp only at k1 k2
    simp only [List.map_cons, List.flatten_cons, hex2, List.cons_append, List.nil_append, readHex, k1, k2, ih]
    have : 16 * (c.toNat / 16) + c.toNat % 16 = c.toNat := by omega
    simp [this]

/-! ## Examples, and where it fails -/

example : putsBytes (quotePuts b!"  " b!"a?\n\"\x01" { cstr := true }) =
    b!"  \"a\\?\\n\"\n  \"\\\"\\001\"" := by decide +kernel
example : readC 100 false b!"  \"a\\?\\n\"\n  \"\\\"\\001\"" = some b!"a?\n\"\x01" := by decide +kernel
example : putsBytes (quotePuts [] b!"a b" {}) = b!"a b" := by decide +kernel
example : putsBytes (quotePuts [] [255, 0] { hex := true }) = b!"0xff00" := by decide +kernel
example : VInv vsbNewAuto ⟨[], 0, false⟩ := ⟨extendSize_pos 0, rfl, rfl, rfl, rfl, rfl⟩

/-- C79.  With VSB_QUOTE_ESCHEX a hexadecimal escape runs into a digit that follows: the byte 1
    followed by "a" becomes the byte 26. -/
theorem C79_counterexample_eschex :
    putsBytes (quotePuts [] [1, 97] { cstr := true, eschex := true }) = b!"\"\\x01a\"" ∧
    readC 100 false b!"\"\\x01a\"" = some [26] := by decide +kernel

/-- C79.  Five and six zeros in hexadecimal are the same text. -/
theorem C79_counterexample_zeros :
    quotePuts [] [0, 0, 0, 0, 0] { hex := true } = quotePuts [] [0, 0, 0, 0, 0, 0] { hex := true } := by
  decide +kernel

/-- The bytes that can stand behind a backslash in JSON (RFC 8259, section 7). -/
def jsonEscapes : Bytes := b!"\"\\/bfnrtu"

/-- C79.  With VSB_QUOTE_JSON the result is no JSON: a vertical tab becomes "\v", and the
    byte 1 becomes "\001". -/
theorem C79_counterexample_json :
    putsBytes (quotePuts [] [11] { json := true }) = [92, 118] ∧ (118 : UInt8) ∉ jsonEscapes ∧
    putsBytes (quotePuts [] [1] { json := true }) = [92, 48, 48, 49] ∧ (48 : UInt8) ∉ jsonEscapes := by
  decide +kernel

end Verif.Props
