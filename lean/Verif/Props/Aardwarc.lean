/-
Property C58: the parameters of an archive are those of its configuration file, and are in range.
-/
import Verif.Model.Aardwarc
import Verif.Props.Config
import Verif.Props.Vnum

namespace Verif.Props
open Verif Config Aardwarc

/-! ### Names in a parsed file -/

/-- A name or value as it comes out of the parser: not empty, without white space, `#` and NUL. -/
def Token (n : Bytes) : Prop := n ≠ [] ∧ ∀ c ∈ n, isSpace c = false ∧ c ≠ 35 ∧ c ≠ 0

/-- All entries have such names. -/
def Tokens (cfg : List Section) : Prop := ∀ s ∈ cfg, ∀ e ∈ s.entries, Token e.name

theorem upTo_sub {c : UInt8} {l : Bytes} : ∀ x ∈ upTo c l, x ∈ l ∧ x ≠ c := by
  induction l with
  | nil => intro x hx; cases hx
  | cons y ys ih =>
    intro x hx
    rw [upTo] at hx
    split at hx
    · cases hx
    · rename_i h
      rcases List.mem_cons.1 hx with rfl | hx
      · exact ⟨by simp, h⟩
      · exact ⟨by simp [(ih x hx).1], (ih x hx).2⟩

theorem behind_sub {c : UInt8} {l : Bytes} : ∀ x ∈ behind c l, x ∈ l := by
  induction l with
  | nil => intro x hx; cases hx
  | cons y ys ih =>
    intro x hx
    rw [behind] at hx
    split at hx
    · simp [hx]
    · simp [ih x hx]

theorem trimRight_sub {l : Bytes} : ∀ x ∈ trimRight l, x ∈ l := by
  induction l with
  | nil => intro x hx; cases hx
  | cons y ys ih =>
    intro x hx
    rw [trimRight] at hx
    split at hx
    · cases hx
    · rcases List.mem_cons.1 hx with rfl | hx
      · simp
      · simp [ih x hx]

theorem trimRight_graph {l : Bytes} (h : trimRight l ≠ []) : ∃ c ∈ trimRight l, isSpace c = false := by
  induction l with
  | nil => exact absurd rfl h
  | cons y ys ih =>
    rw [trimRight] at h ⊢
    split
    · rename_i hc; rw [if_pos hc] at h; exact absurd rfl h
    · rename_i hc
      by_cases hy : isSpace y = true
      · obtain ⟨c, h1, h2⟩ := ih (fun he => hc ⟨hy, he⟩)
        exact ⟨c, by simp [h1], h2⟩
      · exact ⟨y, by simp, by simpa using hy⟩

theorem word_skip {l : Bytes} (h : ∃ c ∈ l, isSpace c = false) :
    word (skipSpace l) ≠ [] ∧ ∀ c ∈ word (skipSpace l), c ∈ l ∧ isSpace c = false := by
  have hw : ∀ m : Bytes, ∀ c ∈ word m, c ∈ m ∧ isSpace c = false := by
    intro m
    induction m with
    | nil => intro c hc; cases hc
    | cons y ys ih =>
      intro c hc
      rw [word] at hc
      split at hc
      · cases hc
      · rename_i hy
        rcases List.mem_cons.1 hc with rfl | hc
        · exact ⟨by simp, by simpa using hy⟩
        · exact ⟨by simp [(ih c hc).1], (ih c hc).2⟩
  have hs : ∀ m : Bytes, ∀ c ∈ skipSpace m, c ∈ m := by
    intro m
    induction m with
    | nil => intro c hc; cases hc
    | cons y ys ih =>
      intro c hc
      rw [skipSpace] at hc
      split at hc
      · simp [ih c hc]
      · exact hc
  refine ⟨?_, fun c hc => ⟨hs l c (hw _ c hc).1, (hw _ c hc).2⟩⟩
  induction l with
  | nil => obtain ⟨c, hc, -⟩ := h; cases hc
  | cons y ys ih =>
    rw [skipSpace]
    split
    · rename_i hy
      obtain ⟨c, h1, h2⟩ := h
      rcases List.mem_cons.1 h1 with rfl | h1
      · rw [h2] at hy; cases hy
      · exact ih ⟨c, h1, h2⟩
    · rename_i hy
      rw [word, if_neg hy]
      simp

theorem addEntry_tokens {e : Config.Entry} (he : Token e.name) {cfg : List Section} (h : Tokens cfg) : Tokens (addEntry e cfg) := by
  induction cfg with
  | nil => exact h
  | cons s ss ih =>
    cases ss with
    | nil =>
      intro t ht x hx
      rw [addEntry, List.mem_singleton] at ht
      subst ht
      rcases List.mem_append.1 hx with hx | hx
      · exact h s (by simp) x hx
      · rw [List.mem_singleton] at hx; subst hx; exact he
    | cons t ts =>
      intro u hu x hx
      rw [addEntry] at hu
      rcases List.mem_cons.1 hu with rfl | hu
      · exact h u (by simp) x hx
      · exact ih (fun s hs => h s (by simp [hs])) u hu x hx

theorem parseLine_tokens {cfg : List Section} (h : Tokens cfg) {line : Bytes} (h0 : (0 : UInt8) ∉ line) :
    Tokens (parseLine cfg line).1 := by
  obtain ⟨l, hl⟩ : ∃ l, l = trimRight (upTo 35 line) := ⟨_, rfl⟩
  unfold parseLine
  simp only [← hl]
  cases l with
  | nil => exact h
  | cons c p =>
    simp only
    split
    · split
      · exact h
      · split
        · exact h
        · intro s hs x hx
          rcases List.mem_append.1 hs with hs | hs
          · exact h s hs x hx
          · rw [List.mem_singleton] at hs; subst hs; cases hx
    · split
      · exact h
      · apply addEntry_tokens _ h
        have hg := trimRight_graph (l := upTo 35 line) (by rw [← hl]; simp)
        rw [← hl] at hg
        obtain ⟨w1, w2⟩ := word_skip hg
        refine ⟨w1, fun d hd => ?_⟩
        obtain ⟨d1, d2⟩ := w2 d hd
        rw [hl] at d1
        obtain ⟨d3, d4⟩ := upTo_sub _ (trimRight_sub _ d1)
        exact ⟨d2, d4, fun e => h0 (e ▸ d3)⟩

theorem parseLines_tokens (fuel : Nat) : ∀ {cfg : List Section} (_ : Tokens cfg) {text : Bytes} (_ : (0 : UInt8) ∉ text),
    Tokens (parseLines fuel cfg text).1 := by
  induction fuel with
  | zero => intro cfg h text _; exact h
  | succ fuel ih =>
    intro cfg h text h0
    rw [parseLines]
    split
    · exact h
    · have h1 := parseLine_tokens h (line := upTo 10 text) (fun hm => h0 (upTo_sub _ hm).1)
      simp only
      split
      · exact h1
      · exact ih h1 (fun hm => h0 (behind_sub _ hm))

/-- What is read from any file has such names. -/
theorem read_tokens {text : Bytes} {cfg : List Section} (h : configRead text = some cfg) : Tokens cfg := by
  unfold configRead at h
  split at h
  · cases h
  · rename_i hb
    cases h
    refine parseLines_tokens _ (fun s hs => by cases hs) ?_
    intro hm
    apply hb
    rw [List.any_eq_true]
    exact ⟨0, hm, by decide⟩

theorem get_token {cfg : List Section} (h : Tokens cfg) {name : Bytes} {a b : Bool} {e : Config.Entry} (hg : configGet cfg name a b = .ok e) :
    Token e.name := by
  unfold configGet at hg
  split at hg
  · cases hg
  · rename_i s hs
    have hm : s ∈ cfg := by
      unfold section? at hs
      exact List.mem_of_find?_eq_some hs
    split at hg
    · rename_i x hx
      split at hg
      · cases hg
      · cases hg
        exact h s hm _ (by rw [hx]; simp)
    · cases hg

/-! ### The parameters -/

/-- Parameters that are in range.  The size of silos is an `off_t`. -/
structure InRange (fmtOk : Bytes → Bool) (p : Params) : Prop where
  pfx : Token p.pfx ∧ p.pfx.getLast? = some 47
  idSize : 16 ≤ p.idSize ∧ p.idSize ≤ 64
  dirname : Token p.dirname ∧ p.dirname.getLast? = some 47
  maxSize : -2 ^ 63 ≤ p.maxSize ∧ p.maxSize < 2 ^ 63
  basename : fmtOk p.basename = true ∧ (47 : UInt8) ∉ p.basename
  sortSize : 4096 ≤ p.sortSize ∧ p.sortSize % 32 = 0

theorem endsSlash_ok {p : Bytes} (hp : p ≠ []) : endsSlash p = .ok (decide (p.getLast? = some 47)) := by
  unfold endsSlash
  rw [decide_eq_true hp]
  rfl

theorem idSizeOf_range {a : Option Bytes} {n : Nat} (h : idSizeOf a = .ok n) : 16 ≤ n ∧ n ≤ 64 := by
  unfold idSizeOf at h
  split at h
  · cases h; omega
  · simp only at h
    split at h
    · cases h
    · split at h
      · cases h
      · cases h; omega

theorem toOff_mod {u : Nat} (h : u < 2 ^ 64) : ((toOff u) % 2 ^ 64).toNat = u ∧ -2 ^ 63 ≤ toOff u ∧ toOff u < 2 ^ 63 := by
  unfold toOff
  split
  · omega
  · omega

theorem sizeStep_lt {fp : Vnum.FP} {p : Bytes} {e : NewErr} {v : Nat} (h : sizeStep fp p e = .ok (.ok v)) : v < 2 ^ 64 := by
  have hc : ∀ x u, Vnum.castU64 x = .ok u → u < 2 ^ 64 := by
    intro x u hu
    unfold Vnum.castU64 at hu
    split at hu
    · rename_i hx
      cases hu
      have h1 : x.floor < 2 ^ 64 := by
        have h3 : (x.floor : ℚ) ≤ x := Int.floor_le x
        have h2 := lt_of_le_of_lt h3 hx.2
        exact_mod_cast h2
      have : x.floor.toNat < 2 ^ 64 := by
        generalize x.floor = z at h1
        omega
      exact this
    · cases hu
  unfold sizeStep at h
  split at h
  · rename_i w hw
    cases h
    unfold Vnum.vnum2bytes at hw
    split at hw
    · cases hw
    · split at hw
      · cases hw
      · exact hc _ _ hw
      · split at hw
        · cases hw
        · exact hc _ _ hw
      · simp only at hw
        split at hw
        · cases hw
        · exact hc _ _ hw
  · cases h
  · cases h

theorem andThen_ok {α : Type} {r : Res (Step α)} {k : α → Res NewRes} {p : Params} (h : andThen r k = .ok (.ok p)) :
    ∃ a, r = .ok (.ok a) ∧ k a = .ok (.ok p) := by
  unfold andThen at h
  rw [Res.bind_eq_ok] at h
  obtain ⟨s, h1, h2⟩ := h
  cases s with
  | error e => cases h2
  | ok a => exact ⟨a, h1, h2⟩

theorem prefixStep_ok {cfg : List Section} (ht : Tokens cfg) {p : Bytes × Nat} (h : prefixStep cfg = .ok (.ok p)) :
    Token p.1 ∧ p.1.getLast? = some 47 ∧ 16 ≤ p.2 ∧ p.2 ≤ 64 := by
  unfold prefixStep at h
  split at h
  · rename_i e hg
    have hk := get_token ht hg
    rw [endsSlash_ok hk.1, Res.ok_bind] at h
    split at h
    · cases h
    · rename_i hs
      split at h
      · cases h
      · rename_i n hn
        cases h
        exact ⟨hk, by simpa using hs, idSizeOf_range hn⟩
  · cases h

theorem dirStep_ok {cfg : List Section} (ht : Tokens cfg) {p : Bytes} (h : dirStep cfg = .ok (.ok p)) :
    Token p ∧ p.getLast? = some 47 := by
  unfold dirStep at h
  split at h
  · rename_i e hg
    have hk := get_token ht hg
    rw [endsSlash_ok hk.1, Res.ok_bind] at h
    split at h
    · cases h
    · rename_i hs
      cases h
      exact ⟨hk, by simpa using hs⟩
  · cases h

/-- C58: whatever is in the configuration file, if the archive is opened, all parameters are in range. -/
theorem C58_in_range {fp : Vnum.FP} {fmtOk : Bytes → Bool} {file : Option Bytes} {p : Params}
    (h : aardwarcNew fp fmtOk file = .ok (.ok p)) : InRange fmtOk p := by
  unfold aardwarcNew at h
  split at h
  · cases h
  · rename_i cfg hcfg
    obtain ⟨text, -, hr⟩ := Option.bind_eq_some_iff.1 hcfg
    have ht := read_tokens hr
    obtain ⟨a, a1, h⟩ := andThen_ok h
    obtain ⟨d, d1, h⟩ := andThen_ok h
    obtain ⟨m, m1, h⟩ := andThen_ok h
    obtain ⟨b, b1, h⟩ := andThen_ok h
    obtain ⟨s, s1, h⟩ := andThen_ok h
    cases h
    obtain ⟨p1, p2, p3⟩ := prefixStep_ok ht a1
    refine ⟨⟨p1, p2⟩, p3, dirStep_ok ht d1, ?_, ?_, ?_⟩
    · unfold maxStep at m1
      rw [Res.bind_eq_ok] at m1
      obtain ⟨r, r1, r2⟩ := m1
      cases r with
      | error e => cases r2
      | ok um =>
        simp only [Res.bind_eq_ok, Res.check_eq_ok, exists_const, Res.pure_eq, Res.ok.injEq, Step.ok.injEq] at r2
        rw [← r2.2]
        exact (toOff_mod (sizeStep_lt r1)).2
    · rw [Res.ok.injEq] at b1
      unfold baseStep at b1
      simp only at b1
      split at b1
      · cases b1
      · rename_i hf
        split at b1
        · cases b1
        · rename_i hs
          cases b1
          exact ⟨by simpa using hf, hs⟩
    · unfold sortStep at s1
      rw [Res.bind_eq_ok] at s1
      obtain ⟨r, r1, r2⟩ := s1
      cases r with
      | error e => cases r2
      | ok um =>
        simp only at r2
        split at r2
        · cases r2
        · cases r2
          show 4096 ≤ um / 32 * 32 ∧ um / 32 * 32 % 32 = 0
          omega

/-- The call returns, or has undefined behaviour for the reason `P`. -/
def Fine (P : Prop) {α : Type} (r : Res α) : Prop := r ≠ .fail ∧ (r = .ub → P)

theorem fine_ok {P : Prop} {α : Type} (a : α) : Fine P (.ok a) := ⟨by simp, by simp⟩

theorem fine_andThen {P : Prop} {α : Type} {r : Res (Step α)} {k : α → Res NewRes} (hr : Fine P r) (hk : ∀ a, r = .ok (.ok a) → Fine P (k a)) :
    Fine P (andThen r k) := by
  unfold andThen
  cases r with
  | fail => exact absurd rfl hr.1
  | ub => exact ⟨by simp, fun _ => hr.2 rfl⟩
  | ok s =>
    cases s with
    | error e => exact fine_ok _
    | ok a => exact hk a rfl

theorem fine_size {fp : Vnum.FP} {p : Bytes} {e : NewErr} {P : Prop} (h : Vnum.vnum2bytes fp p 0 = .ub → P) : Fine P (sizeStep fp p e) := by
  unfold sizeStep
  split
  · exact fine_ok _
  · rename_i hu; exact ⟨by simp, fun _ => h hu⟩
  · exact fine_ok _

/-- A value of the configuration file is used as a size, and is beyond the range of 64-bit numbers. -/
def TooLarge (fp : Vnum.FP) (file : Option Bytes) : Prop :=
  ∃ text cfg name, file = some text ∧ configRead text = some cfg ∧ (name = b!"silo.max_size" ∨ name = b!"index.sort_size") ∧
    ∃ dflt, Vnum.vnum2bytes fp (valueOr cfg name dflt) 0 = .ub

/-- C58: no configuration file makes the opening of the archive abort; nothing outside of a string is read; only sizes of 2^64
and more, or of -1 and less, are converted without a check. -/
theorem C58_no_abort {fp : Vnum.FP} {fmtOk : Bytes → Bool} {file : Option Bytes} :
    Fine (TooLarge fp file) (aardwarcNew fp fmtOk file) := by
  unfold aardwarcNew
  split
  · exact fine_ok _
  · rename_i cfg hcfg
    obtain ⟨text, hfile, hr⟩ := Option.bind_eq_some_iff.1 hcfg
    have ht := read_tokens hr
    apply fine_andThen
    · unfold prefixStep
      split
      · rename_i e hg
        rw [endsSlash_ok (get_token ht hg).1, Res.ok_bind]
        split
        · exact fine_ok _
        · split <;> exact fine_ok _
      · exact fine_ok _
    intro a _
    apply fine_andThen
    · unfold dirStep
      split
      · rename_i e hg
        rw [endsSlash_ok (get_token ht hg).1, Res.ok_bind]
        split <;> exact fine_ok _
      · exact fine_ok _
    intro d _
    apply fine_andThen
    · unfold maxStep
      have hf : Fine (TooLarge fp file) (sizeStep fp (valueOr cfg b!"silo.max_size" b!"3.5G") .maxSize) :=
        fine_size fun h => ⟨text, cfg, _, hfile, hr, .inl rfl, _, h⟩
      cases hs : sizeStep fp (valueOr cfg b!"silo.max_size" b!"3.5G") .maxSize with
      | fail => exact absurd hs hf.1
      | ub => exact ⟨by simp, fun _ => hf.2 hs⟩
      | ok r =>
        cases r with
        | error e => exact fine_ok _
        | ok um =>
          simp only [Res.ok_bind]
          rw [decide_eq_true (toOff_mod (sizeStep_lt hs)).1]
          exact fine_ok _
    intro m _
    apply fine_andThen (fine_ok _)
    intro b _
    apply fine_andThen
    · unfold sortStep
      have hf : Fine (TooLarge fp file) (sizeStep fp (valueOr cfg b!"index.sort_size" b!"10M") .sortSize) :=
        fine_size fun h => ⟨text, cfg, _, hfile, hr, .inr rfl, _, h⟩
      cases hs : sizeStep fp (valueOr cfg b!"index.sort_size" b!"10M") .sortSize with
      | fail => exact absurd hs hf.1
      | ub => exact ⟨by simp, fun _ => hf.2 hs⟩
      | ok r =>
        cases r with
        | error e => exact fine_ok _
        | ok um =>
          simp only [Res.ok_bind]
          split <;> exact fine_ok _
    intro s _
    exact fine_ok _

/-! ### The values are those of the file -/

/-- The section has exactly one entry, which is this one. -/
def Only (cfg : List SSect) (name : Bytes) (e : Config.Entry) : Prop := ∃ s ∈ cfg, SameText s.name name ∧ entriesOf s.body = [e]

/-- No two sections have the same name. -/
def Distinct (cfg : List SSect) : Prop := cfg.Pairwise (fun a b => ¬ SameText a.name b.name)

theorem sameText_trans {a b c : Bytes} (h1 : SameText a b) (h2 : SameText c b) : SameText a c := by
  unfold SameText at *; rw [h1, h2]

theorem section_only {cfg : List SSect} (hd : Distinct cfg) {name : Bytes} {s : SSect} (hs : s ∈ cfg) (hn : SameText s.name name) :
    section? (cfgMeaning cfg) name = some ⟨s.name, entriesOf s.body⟩ := by
  unfold section? cfgMeaning
  induction cfg with
  | nil => cases hs
  | cons t ts ih =>
    unfold Distinct at hd
    rw [List.pairwise_cons] at hd
    rw [List.map_cons, List.find?_cons]
    by_cases ht : SameText t.name name
    · rw [(strcasecmp_beq _ _).2 ht]
      rcases List.mem_cons.1 hs with rfl | h
      · rfl
      · exact absurd (sameText_trans ht hn) (hd.1 s h)
    · have : (strcasecmp t.name name == .eq) = false := by
        cases hb : (strcasecmp t.name name == .eq) with
        | false => rfl
        | true => exact absurd ((strcasecmp_beq _ _).1 hb) ht
      rw [this]
      rcases List.mem_cons.1 hs with rfl | h
      · exact absurd hn ht
      · exact ih hd.2 h

theorem get_only {cfg : List SSect} (hd : Distinct cfg) {name : Bytes} {e : Config.Entry} (h : Only cfg name e) {b : Bool} (hb : b = true ∨ e.arg = none) :
    configGet (cfgMeaning cfg) name true b = .ok e := by
  obtain ⟨s, h1, h2, h3⟩ := h
  unfold configGet
  rw [section_only hd h1 h2]
  simp only [h3]
  rcases hb with rfl | hb
  · simp
  · rw [hb]; simp

/-- The section is not there, or has the value as its only entry; in the first case the value is the default. -/
def Value (cfg : List SSect) (name dflt v : Bytes) : Prop :=
  ((∀ s ∈ cfg, ¬ SameText s.name name) ∧ v = dflt) ∨ Only cfg name ⟨v, none⟩

theorem value_or {cfg : List SSect} (hd : Distinct cfg) {name dflt v : Bytes} (h : Value cfg name dflt v) :
    valueOr (cfgMeaning cfg) name dflt = v := by
  unfold valueOr
  rcases h with ⟨h, rfl⟩ | h
  · rw [(C47_missing_section (cfgMeaning cfg) name [] (by
      intro s hs
      unfold cfgMeaning at hs
      obtain ⟨t, t1, rfl⟩ := List.mem_map.1 hs
      exact h t t1)).2 true false]
  · rw [get_only hd h (.inr rfl)]

theorem digitVal_dec {c : UInt8} (h : isDigit c = true) : digitVal c = c.toNat - 48 ∧ c.toNat - 48 < 10 := by
  have hr := digit_range h
  unfold digitVal
  have h2 : 48 ≤ c ∧ c ≤ 57 := by
    unfold isDigit at h
    simpa using h
  rw [if_pos h2]
  omega

theorem digits_dec (l : Bytes) (h : ∀ c ∈ l, isDigit c = true) (n : Nat) : digits 10 l n = l.foldl (fun n c => n * 10 + (c.toNat - 48)) n := by
  induction l generalizing n with
  | nil => rfl
  | cons c l ih =>
    obtain ⟨h1, h2⟩ := digitVal_dec (h c (by simp))
    rw [digits, h1, if_pos h2, ih (fun c hc => h c (by simp [hc]))]
    rfl

/-- Decimal digits that do not start with 0 are read as decimal number. -/
theorem strtoul0_dec {l : Bytes} (hl : ∀ c ∈ l, isDigit c = true) (h0 : l.head? ≠ some 48) (hv : decVal l < 2 ^ 64) :
    strtoul0 l = decVal l := by
  have hs : Vnum.sign (Vnum.skipSp l) = (1, l) := sign_digit l (fun c hc => .inl (hl c (by
    cases l with
    | nil => cases hc
    | cons x xs => simp at hc; simp [hc])))
  have hr : radix l = (10, l) := by
    unfold radix
    split
    · rfl
    · rfl
    · rename_i c d
      rw [if_neg (fun h => h0 (by simp [h]))]
    · rename_i c d e p
      rw [if_neg (fun h => h0 (by simp [h.1])), if_neg (fun h => h0 (by simp [h]))]
  unfold strtoul0
  simp only [hs, hr]
  rw [digits_dec l hl 0]
  show (if 2 ^ 64 ≤ decVal l then _ else if (1 : Int) < 0 then _ else decVal l) = _
  rw [if_neg (by omega), if_neg (by decide)]

/-- C58: the parameters are those of the file.  The file is any well-formed configuration, in any order, with any white space
and comments; the length of IDs is given in bits, a multiple of 4 from 64 to 256 (without, it is 128); sizes that are not given
are the default. -/
theorem C58_values {fp : Vnum.FP} {fmtOk : Bytes → Bool} (intro : List Line) (cfg : List SSect)
    (hi : ∀ l ∈ intro, ∃ w c, l = .blank w c ∧ l.Good)
    (hg : ∀ s ∈ cfg, (Line.sect s.name s.w s.c).Good ∧ ∀ l ∈ s.body, l.Good ∧ BodyLine l) (hd : Distinct cfg)
    (hu : ∀ c ∈ cfgText intro cfg, c ≠ 0 ∧ c ≠ 0xc0 ∧ c ≠ 0xc1 ∧ c ≤ 0xf4)
    {pfx dir max base sort : Bytes} {bits : Option Bytes} {n m z : Nat}
    (h1 : Only cfg b!"WARC-Record-ID" ⟨pfx, bits⟩) (h1s : pfx.getLast? = some 47)
    (hb : (bits = none ∧ n = 128) ∨ ∃ l, bits = some l ∧ (∀ c ∈ l, isDigit c = true) ∧ l.head? ≠ some 48 ∧ decVal l = n)
    (hn : n % 4 = 0 ∧ 64 ≤ n ∧ n ≤ 256)
    (h2 : Only cfg b!"silo.directory" ⟨dir, none⟩) (h2s : dir.getLast? = some 47)
    (h3 : Value cfg b!"silo.max_size" b!"3.5G" max) (h3s : Vnum.vnum2bytes fp max 0 = .ok m) (hm : m < 2 ^ 63)
    (h4 : Value cfg b!"silo.basename" b!"%08u.warc.gz" base) (h4s : fmtOk base = true ∧ (47 : UInt8) ∉ base)
    (h5 : Value cfg b!"index.sort_size" b!"10M" sort) (h5s : Vnum.vnum2bytes fp sort 0 = .ok z) (hz : 4096 ≤ z) :
    aardwarcNew fp fmtOk (some (cfgText intro cfg)) = .ok (.ok ⟨pfx, n / 4, dir, m, base, z / 32 * 32⟩) := by
  have hp := C47_parse intro cfg hi hg (hd.imp (fun h e => h (by unfold SameText; rw [e])))
  have hread : configRead (cfgText intro cfg) = some (cfgMeaning cfg) := by
    unfold configRead
    rw [if_neg, hp]
    rw [List.any_eq_true]
    rintro ⟨c, c1, c2⟩
    obtain ⟨u1, u2, u3, u4⟩ := hu c c1
    simp only [Bool.or_eq_true, decide_eq_true_eq] at c2
    rcases c2 with ((c2 | c2) | c2) | c2
    · exact u1 c2
    · exact u2 c2
    · exact u3 c2
    · exact absurd c2 (UInt8.not_lt.2 u4)
  have hne : pfx ≠ [] := by intro h; rw [h] at h1s; cases h1s
  have hne2 : dir ≠ [] := by intro h; rw [h] at h2s; cases h2s
  have hid : idSizeOf bits = .ok (n / 4) := by
    rcases hb with ⟨rfl, rfl⟩ | ⟨l, rfl, l1, l2, l3⟩
    · rfl
    · unfold idSizeOf
      simp only
      rw [strtoul0_dec l1 l2 (by omega), l3, Nat.mod_eq_of_lt (by omega), if_neg (by omega), if_neg (by omega)]
  have s1 : prefixStep (cfgMeaning cfg) = .ok (.ok (pfx, n / 4)) := by
    unfold prefixStep
    rw [get_only hd h1 (.inl rfl)]
    simp only
    rw [endsSlash_ok hne, h1s, Res.ok_bind, hid]
    simp
  have s2 : dirStep (cfgMeaning cfg) = .ok (.ok dir) := by
    unfold dirStep
    rw [get_only hd h2 (.inr rfl)]
    simp only
    rw [endsSlash_ok hne2, h2s, Res.ok_bind]
    simp
  have hoff : toOff m = m := by unfold toOff; rw [if_pos hm]
  have s3 : maxStep fp (cfgMeaning cfg) = .ok (.ok (m : Int)) := by
    unfold maxStep sizeStep
    rw [value_or hd h3, h3s]
    simp only [Res.ok_bind]
    rw [hoff, decide_eq_true (by omega)]
    rfl
  have s4 : baseStep fmtOk (cfgMeaning cfg) = .ok base := by
    unfold baseStep
    simp only
    rw [value_or hd h4, h4s.1, if_neg (by simp), if_neg h4s.2]
  have s5 : sortStep fp (cfgMeaning cfg) = .ok (.ok (z / 32 * 32)) := by
    unfold sortStep sizeStep
    rw [value_or hd h5, h5s]
    simp only [Res.ok_bind]
    rw [if_neg (by omega)]
    rfl
  unfold aardwarcNew
  rw [Option.bind_some, hread]
  simp only
  rw [s1, s2, s3, s4, s5]
  rfl

/-- The file of the examples. -/
def exampleCfg (bits max : Bytes) : Bytes :=
  b!"WARC-Record-ID:\n\thttp://x/ " ++ bits ++ b!"\nsilo.directory:\n\t/a/\nsilo.max_size:\n\t" ++ max ++ b!"\nindex.sort_size:\n\t8191\n"

example : aardwarcNew exactFP (fun _ => true) (some (exampleCfg b!"96" b!"1.5k")) =
    .ok (.ok ⟨b!"http://x/", 24, b!"/a/", 1536, b!"%08u.warc.gz", 8160⟩) := by decide +kernel
example : aardwarcNew exactFP (fun _ => true) (some (exampleCfg b!"98" b!"1.5k")) = .ok (.error .idFour) := by decide +kernel
example : aardwarcNew exactFP (fun _ => true) (some b!"silo.directory:\n\t/a/\n") = .ok (.error .noPrefix) := by decide +kernel

/-- The length of IDs is cut to 32 bits before it is checked: 2^32 + 96 passes for 96. -/
theorem C58_counterexample_bits : idSizeOf (some b!"4294967392") = .ok 24 := by decide +kernel

/-- A value with a blank in it, as `VNUM_2bytes` would accept it, is not used, and nothing is reported: silos get the default size. -/
theorem C58_counterexample_blank :
    ∃ cfg, configRead (exampleCfg b!"96" b!"100 M") = some cfg ∧ valueOr cfg b!"silo.max_size" b!"3.5G" = b!"3.5G" :=
  ⟨_, rfl, by decide +kernel⟩

/-- A size of 2^63 or more passes and is negative as an `off_t`. -/
theorem C58_counterexample_sign : aardwarcNew exactFP (fun _ => true) (some (exampleCfg b!"96" b!"8192P")) =
    .ok (.ok ⟨b!"http://x/", 24, b!"/a/", -2 ^ 63, b!"%08u.warc.gz", 8160⟩) := by decide +kernel

end Verif.Props
