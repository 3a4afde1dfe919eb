/-
C78: the command line (main.c and the loops over getopt(3)).
-/
import Verif.Model.Main
import Verif.Props.Aardwarc
import Verif.Model.StowArch

namespace Verif.Props

open _root_.Verif.Main (St Got Item Cmd Outcome Act getopt getopts letter optSpec fuelOf withOptions
  callMain choose conf homeConf globalOpt mainRest Globals)

/-! ## Specification: how options are written (POSIX, Utility Syntax Guidelines) -/

/-- An option without an argument. -/
def IsFlag (ostr : Bytes) (c : UInt8) : Prop :=
  c ≠ 58 ∧ c ≠ 45 ∧ ∃ a b, ostr = a ++ c :: b ∧ c ∉ a ∧ b.head? ≠ some 58

/-- An option with an argument. -/
def TakesArg (ostr : Bytes) (c : UInt8) : Prop :=
  c ≠ 58 ∧ c ≠ 45 ∧ ∃ a b, ostr = a ++ c :: b ∧ c ∉ a ∧ b.head? = some 58

/-- Options without arguments. -/
def flagItems (fs : Bytes) : List Item := fs.map (fun c => ⟨c, none⟩)

/-- The arguments `ws` are a way to write the options: flags can share an argument, the last
    option of it can have its argument behind it or as the next argument. -/
inductive Words (ostr : Bytes) : List Item → List Bytes → Prop
  | nil : Words ostr [] []
  | flags (fs : Bytes) (items : List Item) (ws : List Bytes) : fs ≠ [] → (∀ c ∈ fs, IsFlag ostr c) →
      Words ostr items ws → Words ostr (flagItems fs ++ items) ((45 :: fs) :: ws)
  | attached (fs : Bytes) (c : UInt8) (a : Bytes) (items : List Item) (ws : List Bytes) :
      (∀ c ∈ fs, IsFlag ostr c) → TakesArg ostr c → a ≠ [] → Words ostr items ws →
      Words ostr (flagItems fs ++ ⟨c, some a⟩ :: items) ((45 :: (fs ++ c :: a)) :: ws)
  | separate (fs : Bytes) (c : UInt8) (a : Bytes) (items : List Item) (ws : List Bytes) :
      (∀ c ∈ fs, IsFlag ostr c) → TakesArg ostr c → Words ostr items ws →
      Words ostr (flagItems fs ++ ⟨c, some a⟩ :: items) ((45 :: (fs ++ [c])) :: a :: ws)

/-- What follows the options: "--" and anything, or something that is no option. -/
inductive Behind : List Bytes → List Bytes → Prop
  | dashes (rest : List Bytes) : Behind (b!"--" :: rest) rest
  | none : Behind [] []
  | other (w : Bytes) (rest : List Bytes) : (∀ c p, w ≠ 45 :: c :: p) → Behind (w :: rest) (w :: rest)

/-! ## Lemmas -/

theorem optSpec_eq (a b : Bytes) (c : UInt8) (h : c ∉ a) :
    optSpec (a ++ c :: b) c = some (b.head? == some 58) := by
  induction a with
  | nil => simp [optSpec]
  | cons x a ih =>
    have hx : x ≠ c := fun e => h (by simp [e])
    rw [List.cons_append, optSpec, if_neg hx]
    exact ih (fun hm => h (by simp [hm]))

theorem letter_flag {ostr : Bytes} {c : UInt8} (h : IsFlag ostr c) (argv : List Bytes) (n : Nat) (p : Bytes) :
    letter ostr argv n c p = (.opt c none, { optind := if p = [] then n + 1 else n, place := p }) := by
  obtain ⟨h1, _, a, b, rfl, ha, hb⟩ := h
  have : (b.head? == some 58) = false := by simpa using hb
  simp only [letter, if_neg h1, optSpec_eq a b c ha, this]

theorem letter_arg {ostr : Bytes} {c : UInt8} (h : TakesArg ostr c) (argv : List Bytes) (n : Nat) (p : Bytes) :
    letter ostr argv n c p =
      if p ≠ [] then (.opt c (some p), { optind := n + 1 })
      else
        match argv[n + 1]? with
        | some a => (.opt c (some a), { optind := n + 2 })
        | none => (.bad, { optind := n + 1 }) := by
  obtain ⟨h1, _, a, b, rfl, ha, hb⟩ := h
  have : (b.head? == some 58) = true := by simpa using hb
  simp only [letter, if_neg h1, optSpec_eq a b c ha, this]
  rfl

/-- Options put in front of what is found later. -/
def prepend (l : List Item) : Option (List Item × St) → Option (List Item × St)
  | none => none
  | some (m, t) => some (l ++ m, t)

theorem prepend_prepend (a b : List Item) (x : Option (List Item × St)) :
    prepend a (prepend b x) = prepend (a ++ b) x := by
  cases x with
  | none => rfl
  | some y => obtain ⟨m, t⟩ := y; simp [prepend]

theorem getopts_step {ostr : Bytes} {argv : List Bytes} {s s' : St} {c : UInt8} {a : Option Bytes}
    (h : getopt ostr argv s = (.opt c a, s')) (fuel : Nat) :
    getopts ostr argv (fuel + 1) s = prepend [⟨c, a⟩] (getopts ostr argv fuel s') := by
  rw [getopts, h]
  simp only
  cases getopts ostr argv fuel s' with
  | none => rfl
  | some y => rfl

/-- The state inside of an argument. -/
def inside (n : Nat) (p : Bytes) : St := { optind := if p = [] then n + 1 else n, place := p }

theorem getopt_inside {ostr : Bytes} {argv : List Bytes} {n : Nat} {c : UInt8} {p : Bytes} :
    getopt ostr argv { optind := n, place := c :: p } = letter ostr argv n c p := by
  simp [getopt]

theorem getopts_flags {ostr : Bytes} (argv : List Bytes) (n fuel : Nat) (fs p : Bytes)
    (h : ∀ c ∈ fs, IsFlag ostr c) :
    getopts ostr argv (fs.length + fuel) (inside n (fs ++ p)) =
      prepend (flagItems fs) (getopts ostr argv fuel (inside n p)) := by
  induction fs with
  | nil =>
    simp only [List.length_nil, Nat.zero_add, List.nil_append, flagItems, List.map_nil]
    cases getopts ostr argv fuel (inside n p) with
    | none => rfl
    | some y => rfl
  | cons c fs ih =>
    have hi : inside n (c :: fs ++ p) = { optind := n, place := c :: (fs ++ p) } := by simp [inside]
    have hg : getopt ostr argv (inside n (c :: fs ++ p)) = (.opt c none, inside n (fs ++ p)) := by
      rw [hi, getopt_inside, letter_flag (h c (by simp))]
      rfl
    rw [List.length_cons, show fs.length + 1 + fuel = fs.length + fuel + 1 from by omega,
      getopts_step hg, ih (fun x hx => h x (by simp [hx])), prepend_prepend]
    rfl

/-- A new argument with options is the same as being inside of it. -/
theorem getopts_enter' {ostr : Bytes} {argv : List Bytes} {n : Nat} {s : St} {w : Bytes} (hs : s.optind = n)
    (hp : s.place = []) (hw : argv[n]? = some (45 :: w)) (hne : w ≠ []) (h45 : w ≠ [45])
    (fuel : Nat) : getopts ostr argv (fuel + 1) s = getopts ostr argv (fuel + 1) (inside n w) := by
  have : getopt ostr argv s = getopt ostr argv (inside n w) := by
    cases w with
    | nil => exact absurd rfl hne
    | cons c p =>
      have hc : ¬ (c = 45 ∧ p = []) := fun e => h45 (by simp [e.1, e.2])
      have hi : inside n (c :: p) = { optind := n, place := c :: p } := by simp [inside]
      rw [hi, getopt_inside, getopt, if_pos (Or.inr hp), hs, hw]
      simp only [if_neg hc]
  rw [getopts, getopts, this]

theorem getopts_enter {ostr : Bytes} {argv : List Bytes} {n : Nat} {s : St} {w : Bytes} (hs : s.optind = n)
    (hp : s.place = []) (hw : argv[n]? = some (45 :: w)) (hne : w ≠ []) (h45 : w.head? ≠ some 45)
    (fuel : Nat) : getopts ostr argv (fuel + 1) s = getopts ostr argv (fuel + 1) (inside n w) :=
  getopts_enter' hs hp hw hne (fun h => h45 (by rw [h]; rfl)) fuel

theorem words_get {argv pre ws : List Bytes} {w : Bytes} (h : argv = pre ++ w :: ws) :
    argv[pre.length]? = some w := by
  subst h
  simp

theorem flag_ne_dash {ostr fs : Bytes} (h : ∀ c ∈ fs, IsFlag ostr c) (p : Bytes) (hp : p.head? ≠ some 45) :
    (fs ++ p).head? ≠ some 45 := by
  cases fs with
  | nil => exact hp
  | cons c fs =>
    have := (h c (by simp)).2.1
    simpa using this

theorem getopts_words {ostr : Bytes} {items : List Item} {ws tail rest : List Bytes}
    (hw : Words ostr items ws) (ht : Behind tail rest) (argv pre : List Bytes) (fuel : Nat) (s : St)
    (ha : argv = pre ++ ws ++ tail) (hs : s.optind = pre.length) (hp : s.place = [])
    (hf : items.length < fuel) :
    ∃ t, getopts ostr argv fuel s = some (items, t) ∧ argv.drop t.optind = rest ∧ t.place = [] ∧
      t.reset = false := by
  induction hw generalizing pre fuel s with
  | nil =>
    obtain ⟨fuel, rfl⟩ : ∃ k, fuel = k + 1 := ⟨fuel - 1, by omega⟩
    rw [List.append_nil] at ha
    cases ht with
    | dashes rest =>
      have hg : getopt ostr argv s = (.done, { optind := s.optind + 1 }) := by
        rw [getopt, if_pos (Or.inr hp), hs, words_get ha]
        simp
      refine ⟨{ optind := s.optind + 1 }, by rw [getopts, hg], ?_, rfl, rfl⟩
      rw [hs, ha]
      simp
    | none =>
      have hg : getopt ostr argv s = (.done, { optind := s.optind }) := by
        rw [getopt, if_pos (Or.inr hp), hs, ha]
        simp
      refine ⟨{ optind := s.optind }, by rw [getopts, hg], ?_, rfl, rfl⟩
      rw [hs, ha]
      simp
    | other w rest hw =>
      have hg : getopt ostr argv s = (.done, { optind := s.optind }) := by
        rw [getopt, if_pos (Or.inr hp), hs, words_get ha]
        split
        · next c p e =>
          exact absurd (Option.some.inj e) (hw c p)
        · rfl
      refine ⟨{ optind := s.optind }, by rw [getopts, hg], ?_, rfl, rfl⟩
      rw [hs, ha]
      simp
  | flags fs items ws hne hfl hw ih =>
    have hlen : (flagItems fs ++ items).length = fs.length + items.length := by simp [flagItems]
    have hpos : 0 < fs.length := List.length_pos_iff.mpr hne
    rw [hlen] at hf
    obtain ⟨k, rfl⟩ : ∃ k, fuel = fs.length + k := ⟨fuel - fs.length, by omega⟩
    have hget : argv[pre.length]? = some (45 :: fs) :=
      words_get (ws := ws ++ tail) (by rw [ha]; simp)
    obtain ⟨j, hj⟩ : ∃ j, fs.length + k = j + 1 := ⟨fs.length + k - 1, by omega⟩
    have e1 := getopts_enter (ostr := ostr) hs hp hget hne
      (by simpa using flag_ne_dash hfl [] (by simp)) j
    have e2 := getopts_flags (ostr := ostr) argv pre.length k fs [] hfl
    rw [List.append_nil, hj] at e2
    obtain ⟨t, h1, h2, h3, h4⟩ := ih (pre ++ [45 :: fs]) k (inside pre.length [])
      (by rw [ha]; simp) (by simp [inside]) rfl (by omega)
    refine ⟨t, ?_, h2, h3, h4⟩
    rw [hj, e1, e2, h1]
    rfl
  | attached fs c a items ws hfl hc hne hw ih =>
    have hlen : (flagItems fs ++ (⟨c, some a⟩ : Item) :: items).length = fs.length + (items.length + 1) := by
      simp [flagItems]
    rw [hlen] at hf
    obtain ⟨k, rfl⟩ : ∃ k, fuel = fs.length + (k + 1) := ⟨fuel - fs.length - 1, by omega⟩
    have hget : argv[pre.length]? = some (45 :: (fs ++ c :: a)) :=
      words_get (ws := ws ++ tail) (by rw [ha]; simp)
    have e1 := getopts_enter (ostr := ostr) hs hp hget (by simp)
      (flag_ne_dash hfl (c :: a) (by simpa using hc.2.1)) (fs.length + k)
    have e2 := getopts_flags (ostr := ostr) argv pre.length (k + 1) fs (c :: a) hfl
    have hi : inside pre.length (c :: a) = { optind := pre.length, place := c :: a } := by simp [inside]
    have e3 := getopts_step (ostr := ostr) (argv := argv) (s := inside pre.length (c :: a))
      (s' := { optind := pre.length + 1 }) (c := c) (a := some a)
      (by rw [hi, getopt_inside, letter_arg hc, if_pos hne]) k
    obtain ⟨t, h1, h2, h3, h4⟩ := ih (pre ++ [45 :: (fs ++ c :: a)]) k { optind := pre.length + 1 }
      (by rw [ha]; simp) (by simp) rfl (by omega)
    refine ⟨t, ?_, h2, h3, h4⟩
    rw [show fs.length + (k + 1) = fs.length + k + 1 from rfl, e1,
      show fs.length + k + 1 = fs.length + (k + 1) from rfl, e2, e3, h1]
    rfl
  | separate fs c a items ws hfl hc hw ih =>
    have hlen : (flagItems fs ++ (⟨c, some a⟩ : Item) :: items).length = fs.length + (items.length + 1) := by
      simp [flagItems]
    rw [hlen] at hf
    obtain ⟨k, rfl⟩ : ∃ k, fuel = fs.length + (k + 1) := ⟨fuel - fs.length - 1, by omega⟩
    have hget : argv[pre.length]? = some (45 :: (fs ++ [c])) :=
      words_get (ws := a :: ws ++ tail) (by rw [ha]; simp)
    have hget2 : argv[pre.length + 1]? = some a := by
      have := words_get (argv := argv) (pre := pre ++ [45 :: (fs ++ [c])]) (ws := ws ++ tail) (w := a)
        (by rw [ha]; simp)
      simpa using this
    have e1 := getopts_enter (ostr := ostr) hs hp hget (by simp)
      (flag_ne_dash hfl [c] (by simpa using hc.2.1)) (fs.length + k)
    have e2 := getopts_flags (ostr := ostr) argv pre.length (k + 1) fs [c] hfl
    have hi : inside pre.length [c] = { optind := pre.length, place := [c] } := by simp [inside]
    have e3 := getopts_step (ostr := ostr) (argv := argv) (s := inside pre.length [c])
      (s' := { optind := pre.length + 2 }) (c := c) (a := some a)
      (by rw [hi, getopt_inside, letter_arg hc, if_neg (by simp), hget2]) k
    obtain ⟨t, h1, h2, h3, h4⟩ := ih (pre ++ [45 :: (fs ++ [c]), a]) k { optind := pre.length + 2 }
      (by rw [ha]; simp) (by simp) rfl (by omega)
    refine ⟨t, ?_, h2, h3, h4⟩
    rw [show fs.length + (k + 1) = fs.length + k + 1 from rfl, e1,
      show fs.length + k + 1 = fs.length + (k + 1) from rfl, e2, e3, h1]
    rfl

/-- The words in front are read, and then what follows. -/
theorem getopts_front {ostr : Bytes} {items : List Item} {ws : List Bytes}
    (hw : Words ostr items ws) (argv pre tail : List Bytes) (fuel : Nat) (s : St)
    (ha : argv = pre ++ ws ++ tail) (hs : s.optind = pre.length) (hp : s.place = [])
    (hf : items.length ≤ fuel) :
    ∃ t : St, t.optind = (pre ++ ws).length ∧ t.place = [] ∧
      getopts ostr argv fuel s = prepend items (getopts ostr argv (fuel - items.length) t) := by
  induction hw generalizing pre fuel s with
  | nil =>
    refine ⟨s, by simp [hs], hp, ?_⟩
    simp only [List.length_nil, Nat.sub_zero]
    cases getopts ostr argv fuel s with
    | none => rfl
    | some y => rfl
  | flags fs items ws hne hfl hw ih =>
    have hlen : (flagItems fs ++ items).length = fs.length + items.length := by simp [flagItems]
    have hpos : 0 < fs.length := List.length_pos_iff.mpr hne
    rw [hlen] at hf ⊢
    obtain ⟨k, rfl⟩ : ∃ k, fuel = fs.length + k := ⟨fuel - fs.length, by omega⟩
    have hget : argv[pre.length]? = some (45 :: fs) :=
      words_get (ws := ws ++ tail) (by rw [ha]; simp)
    obtain ⟨j, hj⟩ : ∃ j, fs.length + k = j + 1 := ⟨fs.length + k - 1, by omega⟩
    have e1 := getopts_enter (ostr := ostr) hs hp hget hne
      (by simpa using flag_ne_dash hfl [] (by simp)) j
    have e2 := getopts_flags (ostr := ostr) argv pre.length k fs [] hfl
    rw [List.append_nil, hj] at e2
    obtain ⟨t, h1, h2, h3⟩ := ih (pre ++ [45 :: fs]) k (inside pre.length [])
      (by rw [ha]; simp) (by simp [inside]) rfl (by omega)
    refine ⟨t, by rw [h1]; simp, h2, ?_⟩
    rw [hj, e1, e2, h3, prepend_prepend, show j + 1 - (fs.length + items.length) = k - items.length from by omega]
  | attached fs c a items ws hfl hc hne hw ih =>
    have hlen : (flagItems fs ++ (⟨c, some a⟩ : Item) :: items).length = fs.length + (items.length + 1) := by
      simp [flagItems]
    rw [hlen] at hf ⊢
    obtain ⟨k, rfl⟩ : ∃ k, fuel = fs.length + (k + 1) := ⟨fuel - fs.length - 1, by omega⟩
    have hget : argv[pre.length]? = some (45 :: (fs ++ c :: a)) :=
      words_get (ws := ws ++ tail) (by rw [ha]; simp)
    have e1 := getopts_enter (ostr := ostr) hs hp hget (by simp)
      (flag_ne_dash hfl (c :: a) (by simpa using hc.2.1)) (fs.length + k)
    have e2 := getopts_flags (ostr := ostr) argv pre.length (k + 1) fs (c :: a) hfl
    have hi : inside pre.length (c :: a) = { optind := pre.length, place := c :: a } := by simp [inside]
    have e3 := getopts_step (ostr := ostr) (argv := argv) (s := inside pre.length (c :: a))
      (s' := { optind := pre.length + 1 }) (c := c) (a := some a)
      (by rw [hi, getopt_inside, letter_arg hc, if_pos hne]) k
    obtain ⟨t, h1, h2, h3⟩ := ih (pre ++ [45 :: (fs ++ c :: a)]) k { optind := pre.length + 1 }
      (by rw [ha]; simp) (by simp) rfl (by omega)
    refine ⟨t, by rw [h1]; simp, h2, ?_⟩
    rw [show fs.length + (k + 1) = fs.length + k + 1 from rfl, e1,
      show fs.length + k + 1 = fs.length + (k + 1) from rfl, e2, e3, h3, prepend_prepend, prepend_prepend,
      show fs.length + (k + 1) - (fs.length + (items.length + 1)) = k - items.length from by omega]
    simp
  | separate fs c a items ws hfl hc hw ih =>
    have hlen : (flagItems fs ++ (⟨c, some a⟩ : Item) :: items).length = fs.length + (items.length + 1) := by
      simp [flagItems]
    rw [hlen] at hf ⊢
    obtain ⟨k, rfl⟩ : ∃ k, fuel = fs.length + (k + 1) := ⟨fuel - fs.length - 1, by omega⟩
    have hget : argv[pre.length]? = some (45 :: (fs ++ [c])) :=
      words_get (ws := a :: ws ++ tail) (by rw [ha]; simp)
    have hget2 : argv[pre.length + 1]? = some a := by
      have := words_get (argv := argv) (pre := pre ++ [45 :: (fs ++ [c])]) (ws := ws ++ tail) (w := a)
        (by rw [ha]; simp)
      simpa using this
    have e1 := getopts_enter (ostr := ostr) hs hp hget (by simp)
      (flag_ne_dash hfl [c] (by simpa using hc.2.1)) (fs.length + k)
    have e2 := getopts_flags (ostr := ostr) argv pre.length (k + 1) fs [c] hfl
    have hi : inside pre.length [c] = { optind := pre.length, place := [c] } := by simp [inside]
    have e3 := getopts_step (ostr := ostr) (argv := argv) (s := inside pre.length [c])
      (s' := { optind := pre.length + 2 }) (c := c) (a := some a)
      (by rw [hi, getopt_inside, letter_arg hc, if_neg (by simp), hget2]) k
    obtain ⟨t, h1, h2, h3⟩ := ih (pre ++ [45 :: (fs ++ [c]), a]) k { optind := pre.length + 2 }
      (by rw [ha]; simp) (by simp) rfl (by omega)
    refine ⟨t, by rw [h1]; simp, h2, ?_⟩
    rw [show fs.length + (k + 1) = fs.length + k + 1 from rfl, e1,
      show fs.length + k + 1 = fs.length + (k + 1) from rfl, e2, e3, h3, prepend_prepend, prepend_prepend,
      show fs.length + (k + 1) - (fs.length + (items.length + 1)) = k - items.length from by omega]
    simp

theorem words_length {ostr : Bytes} {items : List Item} {ws : List Bytes} (h : Words ostr items ws) :
    items.length ≤ (ws.map List.length).sum := by
  induction h with
  | nil => simp
  | flags fs items ws _ _ _ ih => simp [flagItems]; omega
  | attached fs c a items ws _ _ _ _ ih => simp [flagItems]; omega
  | separate fs c a items ws _ _ _ ih => simp [flagItems]; omega

/-- C78.  However the options are written, with flags together or apart, arguments attached or
    separate, with "--" or without, getopt(3) delivers them in their order, and the arguments
    behind them are left. -/
theorem C78_getopt (ostr a0 : Bytes) (items : List Item) (ws tail rest : List Bytes) (r : Bool)
    (hw : Words ostr items ws) (ht : Behind tail rest) :
    ∃ t, getopts ostr (a0 :: ws ++ tail) (fuelOf (a0 :: ws ++ tail)) { reset := r } = some (items, t) ∧
      (a0 :: ws ++ tail).drop t.optind = rest := by
  obtain ⟨t, h1, h2, _, _⟩ := getopts_words hw ht (a0 :: ws ++ tail) [a0] (fuelOf (a0 :: ws ++ tail))
    { reset := r } (by simp) rfl rfl (by
      have := words_length hw
      simp [fuelOf]
      omega)
  exact ⟨t, h1, h2⟩

/-- Something that is wrong behind good options: an option that there is not, or the argument of
    one is missing. -/
inductive Wrong (ostr : Bytes) : List Bytes → Prop
  | unknown (fs : Bytes) (c : UInt8) (p : Bytes) (rest : List Bytes) : (∀ c ∈ fs, IsFlag ostr c) →
      c ∉ ostr ∨ c = 58 → ¬ (fs = [] ∧ c = 45 ∧ p = []) → Wrong ostr ((45 :: (fs ++ c :: p)) :: rest)
  | missing (fs : Bytes) (c : UInt8) : (∀ c ∈ fs, IsFlag ostr c) → TakesArg ostr c →
      Wrong ostr [45 :: (fs ++ [c])]

theorem optSpec_none {ostr : Bytes} {c : UInt8} (h : c ∉ ostr) : optSpec ostr c = none := by
  induction ostr with
  | nil => rfl
  | cons x r ih =>
    have hx : x ≠ c := fun e => h (by simp [e])
    rw [optSpec, if_neg hx]
    exact ih (fun hm => h (by simp [hm]))

theorem letter_unknown {ostr : Bytes} {c : UInt8} (h : c ∉ ostr ∨ c = 58) (argv : List Bytes) (n : Nat) (p : Bytes) :
    (letter ostr argv n c p).1 = .bad := by
  unfold letter
  rcases h with h | h
  · by_cases hc : c = 58
    · simp [hc]
    · simp [hc, optSpec_none h]
  · simp [h]

/-- C78.  An option that there is not, or whose argument is missing, is noticed wherever it is. -/
theorem C78_wrong (ostr a0 : Bytes) (items : List Item) (ws tail : List Bytes) (r : Bool)
    (hw : Words ostr items ws) (ht : Wrong ostr tail) :
    getopts ostr (a0 :: ws ++ tail) (fuelOf (a0 :: ws ++ tail)) { reset := r } = none := by
  have hl := words_length hw
  have hfu : fuelOf (a0 :: ws ++ tail) = a0.length + (ws.map List.length).sum + (tail.map List.length).sum +
      (1 + ws.length + tail.length) + 1 := by
    simp [fuelOf]; omega
  obtain ⟨t, h1, h2, h3⟩ := getopts_front hw (a0 :: ws ++ tail) [a0] tail (fuelOf (a0 :: ws ++ tail))
    { reset := r } (by simp) rfl rfl (by omega)
  rw [h3]
  cases ht with
  | unknown fs c p rest hfl hc hd =>
    have hget : (a0 :: ws ++ (45 :: (fs ++ c :: p)) :: rest)[([a0] ++ ws).length]? = some (45 :: (fs ++ c :: p)) :=
      words_get (ws := rest) (by simp)
    have hsz : fs.length + 1 ≤ fuelOf (a0 :: ws ++ (45 :: (fs ++ c :: p)) :: rest) - items.length := by
      rw [hfu]; simp; omega
    obtain ⟨k, hk⟩ : ∃ k, fuelOf (a0 :: ws ++ (45 :: (fs ++ c :: p)) :: rest) - items.length = fs.length + (k + 1) :=
      ⟨fuelOf (a0 :: ws ++ (45 :: (fs ++ c :: p)) :: rest) - items.length - fs.length - 1, by omega⟩
    have e1 := getopts_enter' (ostr := ostr) h1 h2 hget (by simp) (by
      intro hh
      cases fs with
      | nil =>
        simp only [List.nil_append, List.cons.injEq] at hh
        exact hd ⟨rfl, hh.1, hh.2⟩
      | cons x fs => simp at hh) (fs.length + k)
    have e2 := getopts_flags (ostr := ostr) (a0 :: ws ++ (45 :: (fs ++ c :: p)) :: rest) ([a0] ++ ws).length (k + 1) fs
      (c :: p) hfl
    have hi : inside ([a0] ++ ws).length (c :: p) = { optind := ([a0] ++ ws).length, place := c :: p } := by
      simp [inside]
    have e3 : getopts ostr (a0 :: ws ++ (45 :: (fs ++ c :: p)) :: rest) (k + 1) (inside ([a0] ++ ws).length (c :: p)) =
        none := by
      rw [getopts, hi, getopt_inside]
      have := letter_unknown hc (a0 :: ws ++ (45 :: (fs ++ c :: p)) :: rest) ([a0] ++ ws).length p
      generalize letter ostr (a0 :: ws ++ (45 :: (fs ++ c :: p)) :: rest) ([a0] ++ ws).length c p = x at this
      obtain ⟨x1, x2⟩ := x
      cases this
      rfl
    rw [hk, show fs.length + (k + 1) = fs.length + k + 1 from rfl, e1,
      show fs.length + k + 1 = fs.length + (k + 1) from rfl, e2, e3]
    rfl
  | missing fs c hfl hc =>
    have hget : (a0 :: ws ++ [45 :: (fs ++ [c])])[([a0] ++ ws).length]? = some (45 :: (fs ++ [c])) :=
      words_get (ws := []) (by simp)
    have hsz : fs.length + 1 ≤ fuelOf (a0 :: ws ++ [45 :: (fs ++ [c])]) - items.length := by
      rw [hfu]; simp; omega
    obtain ⟨k, hk⟩ : ∃ k, fuelOf (a0 :: ws ++ [45 :: (fs ++ [c])]) - items.length = fs.length + (k + 1) :=
      ⟨fuelOf (a0 :: ws ++ [45 :: (fs ++ [c])]) - items.length - fs.length - 1, by omega⟩
    have e1 := getopts_enter (ostr := ostr) h1 h2 hget (by simp)
      (flag_ne_dash hfl [c] (by simpa using hc.2.1)) (fs.length + k)
    have e2 := getopts_flags (ostr := ostr) (a0 :: ws ++ [45 :: (fs ++ [c])]) ([a0] ++ ws).length (k + 1) fs [c] hfl
    have hi : inside ([a0] ++ ws).length [c] = { optind := ([a0] ++ ws).length, place := [c] } := by
      simp [inside]
    have e3 : getopts ostr (a0 :: ws ++ [45 :: (fs ++ [c])]) (k + 1) (inside ([a0] ++ ws).length [c]) = none := by
      rw [getopts, hi, getopt_inside, letter_arg hc, if_neg (by simp)]
      have : (a0 :: ws ++ [45 :: (fs ++ [c])])[([a0] ++ ws).length + 1]? = none := by simp
      rw [this]
    rw [hk, show fs.length + (k + 1) = fs.length + k + 1 from rfl, e1,
      show fs.length + k + 1 = fs.length + (k + 1) from rfl, e2, e3]
    rfl

/-- The commands and their options, as the usage texts and the manual have them. -/
def commandOptions : List (Bytes × Bytes) :=
  [(b!"audit", b!"i:h"), (b!"byid", b!"he"), (b!"cgi", b!"h"), (b!"dumpindex", b!"ht:"), (b!"filter", b!"ho:rsv"),
   (b!"get", b!"ho:nqz"), (b!"housekeeping", b!"h"), (b!"info", b!"h"), (b!"mksilo", b!"h"), (b!"rebuild", b!"h"),
   (b!"reindex", b!"h"), (b!"stevedore", b!"h"), (b!"store", b!"hi:m:t:r:"), (b!"stow", b!"c:d:hr:"),
   (b!"_testbytes", b!"hn:")]

theorem mem_commands {x : Bytes × Bytes} (h : x ∈ commandOptions) :
    ∃ (σ : Type) (f : σ → Item → Option σ) (init : σ) (k : σ → List Bytes → Outcome),
      ∀ argv s, callMain false (x.1 :: argv) s = withOptions x.2 (x.1 :: argv) s f init k := by
  simp only [commandOptions, List.mem_cons, List.not_mem_nil, or_false] at h
  rcases h with rfl | rfl | rfl | rfl | rfl | rfl | rfl | rfl | rfl | rfl | rfl | rfl | rfl | rfl | rfl
  · exact ⟨Bool, fun a i => some (a || i.text == b!"ignore-metadata-record-id"), false,
      fun a args => .run (.audit a args), fun argv s => rfl⟩
  · exact ⟨Bool, fun _ _ => some true, false, fun a args => .run (.byid a args), fun argv s => rfl⟩
  · exact ⟨Unit, Main.noOpt, (), fun _ args => if args = [] then .run .cgi else .exit 1, fun argv s => rfl⟩
  · exact ⟨Option Bytes, Main.dumpOpt, none, fun a args => .run (.dumpindex a args), fun argv s => rfl⟩
  · exact ⟨Main.FilterArgs, Main.filterOpt, {}, fun a args => .run (.filter a.out a.r a.s a.v args),
      fun argv s => rfl⟩
  · exact ⟨_, Main.getOpt, (none, ⟨false, false, false⟩),
      fun a args => match args with
        | [id] => .run (.get a.1 a.2 id)
        | _ => .exit 1, fun argv s => rfl⟩
  · exact ⟨Unit, Main.noOpt, (), fun _ args => if args = [] then .run .housekeeping else .abort,
      fun argv s => rfl⟩
  · exact ⟨Unit, Main.noOpt, (), fun _ args => if args = [] then .run (.info false) else .exit 1,
      fun argv s => rfl⟩
  · exact ⟨Unit, Main.noOpt, (), fun _ args => match args with
        | [] => .exit 1
        | n :: _ => .run (.mksilo n), fun argv s => rfl⟩
  · exact ⟨Unit, Main.noOpt, (), fun _ args => .run (.rebuild args), fun argv s => rfl⟩
  · exact ⟨Unit, Main.noOpt, (), fun _ args => .run (.reindex args), fun argv s => rfl⟩
  · exact ⟨Unit, Main.noOpt, (), fun _ args => if args = [] then .run .stevedore else .exit 1,
      fun argv s => rfl⟩
  · exact ⟨_, Main.storeOpt, MainStore.noArgs, fun a args => match args with
        | [] => .run (.store a none)
        | [f] => .run (.store a (if f = b!"-" then none else some f))
        | _ => .exit 1, fun argv s => rfl⟩
  · exact ⟨Unit, Main.noOpt, (), fun _ args => if args = [] then .exit 1 else .run (.stow args),
      fun argv s => rfl⟩
  · exact ⟨Bytes, fun _ i => some i.text, b!"0", fun a args => if args = [] then .run (.testbytes a) else .abort,
      fun argv s => rfl⟩

/-- C78.  For every command: an option that it does not have, an argument that is missing, or
    `-h`, wherever it is among the options, and it exits with status 1. -/
theorem C78_refused (name ostr : Bytes) (hm : (name, ostr) ∈ commandOptions) (items : List Item)
    (ws tail : List Bytes) (hw : Words ostr items ws) :
    (Wrong ostr tail → callMain false (name :: ws ++ tail) { reset := true } = .exit 1) ∧
    ((∃ i ∈ items, i.c = 104) → (∃ rest, Behind tail rest) →
      callMain false (name :: ws ++ tail) { reset := true } = .exit 1) := by
  obtain ⟨σ, f, init, k, hk⟩ := mem_commands hm
  have hk' := hk (ws ++ tail) { reset := true }
  simp only at hk'
  rw [← List.cons_append] at hk'
  refine ⟨fun ht => ?_, fun hi ht => ?_⟩
  · rw [hk', withOptions, C78_wrong ostr name items ws tail true hw ht]
  · obtain ⟨rest, ht⟩ := ht
    obtain ⟨t, h1, _⟩ := C78_getopt ostr name items ws tail rest true hw ht
    have hfold : ∀ (l : List Item) (a : σ), (∃ i ∈ l, i.c = 104) →
        l.foldlM (fun a i => if i.c = 104 then none else f a i) a = none := by
      intro l
      induction l with
      | nil => intro a ⟨i, hi, _⟩; simp at hi
      | cons x l ih =>
        intro a ⟨i, hi, hc⟩
        rw [List.foldlM_cons]
        by_cases hx : x.c = 104
        · simp [hx]
        · rw [if_neg hx]
          have hil : i ∈ l := by
            rw [List.mem_cons] at hi
            rcases hi with rfl | hi
            · exact absurd hc hx
            · exact hi
          cases f a x with
          | none => rfl
          | some b => exact ih b ⟨i, hil, hc⟩
    rw [hk', withOptions, h1]
    simp only [hfold items init hi]

/-- C78.  What a command does with its options and the remaining arguments does not depend on how
    they are written. -/
theorem C78_options {σ : Type} (ostr a0 : Bytes) (items : List Item) (ws tail rest : List Bytes) (r : Bool)
    (f : σ → Item → Option σ) (init : σ) (k : σ → List Bytes → Outcome)
    (hw : Words ostr items ws) (ht : Behind tail rest) :
    withOptions ostr (a0 :: ws ++ tail) { reset := r } f init k =
      match items.foldlM (fun a i => if i.c = 104 then none else f a i) init with
      | none => .exit 1
      | some a => k a rest := by
  obtain ⟨t, h1, h2⟩ := C78_getopt ostr a0 items ws tail rest r hw ht
  rw [withOptions, h1]
  simp only [h2]
  rfl

/-! ## `get` -/

/-- How often a flag is given. -/
def times (c : UInt8) (items : List Item) : Nat := (items.filter (fun i => i.c == c)).length

/-- The argument of the last of the options `c`. -/
def lastArg (c : UInt8) (items : List Item) : Option Bytes :=
  ((items.filter (fun i => i.c == c)).getLast?).map Main.Item.text

theorem times_cons (c : UInt8) (i : Item) (l : List Item) :
    times c (i :: l) = (if i.c = c then 1 else 0) + times c l := by
  unfold times
  by_cases h : i.c = c
  · simp [h]; omega
  · simp [h]

theorem lastArg_cons (c : UInt8) (i : Item) (l : List Item) :
    lastArg c (i :: l) = (lastArg c l).or (if i.c = c then some i.text else none) := by
  unfold lastArg
  by_cases h : i.c = c
  · have : (i.c == c) = true := by simpa using h
    rw [List.filter_cons_of_pos (by simpa using h), if_pos h, List.getLast?_cons]
    cases (l.filter (fun i => i.c == c)).getLast? <;> simp
  · rw [List.filter_cons_of_neg (by simpa using h), if_neg h]
    cases (l.filter (fun i => i.c == c)).getLast? <;> simp

theorem get_fold (items : List Item) (hi : ∀ i ∈ items, i.c = 111 ∨ i.c = 110 ∨ i.c = 113 ∨ i.c = 122) :
    ∀ (o : Option Bytes) (n q z : Bool),
    items.foldlM (fun a i => if i.c = 104 then none else Main.getOpt a i) (o, ⟨n, q, z⟩) =
      some ((lastArg 111 items).or o,
        ⟨n ^^ decide (times 110 items % 2 = 1), q ^^ decide (times 113 items % 2 = 1),
          z ^^ decide (times 122 items % 2 = 1)⟩) := by
  induction items with
  | nil => intro o n q z; simp [lastArg, times]
  | cons i l ih =>
    intro o n q z
    have hl := ih (fun x hx => hi x (by simp [hx]))
    have par : ∀ (b : Bool) (m : Nat), (b ^^ decide ((1 + m) % 2 = 1)) = (!b ^^ decide (m % 2 = 1)) := by
      intro b m
      rcases Nat.mod_two_eq_zero_or_one m with h | h
      · have : (1 + m) % 2 = 1 := by omega
        simp [h, this]
      · have : (1 + m) % 2 = 0 := by omega
        simp [h, this]
    have step : ∀ a b, (if i.c = 104 then none else Main.getOpt a i) = some b →
        (i :: l).foldlM (fun a i => if i.c = 104 then none else Main.getOpt a i) a =
          l.foldlM (fun a i => if i.c = 104 then none else Main.getOpt a i) b := by
      intro a b e
      rw [List.foldlM_cons, e]
      rfl
    rcases hi i (by simp) with h | h | h | h
    · rw [step _ (some i.text, ⟨n, q, z⟩) (by simp [h, Main.getOpt]), hl]
      simp only [h, times_cons, lastArg_cons]
      cases lastArg 111 l <;> simp
    · rw [step _ (o, ⟨!n, q, z⟩) (by simp [h, Main.getOpt]), hl]
      simp only [h, times_cons, lastArg_cons]
      simp [par]
    · rw [step _ (o, ⟨n, !q, z⟩) (by simp [h, Main.getOpt]), hl]
      simp only [h, times_cons, lastArg_cons]
      simp [par]
    · rw [step _ (o, ⟨n, q, !z⟩) (by simp [h, Main.getOpt]), hl]
      simp only [h, times_cons, lastArg_cons]
      simp [par]

/-- C78.  `get` with any options but `-h`, in any order and however written, and one ID: of
    several `-o` the last one counts, and two of the same flag cancel out. -/
theorem C78_get (items : List Item) (ws tail : List Bytes) (id : Bytes) (hw : Words b!"ho:nqz" items ws)
    (ht : Behind tail [id]) (hh : ∀ i ∈ items, i.c = 111 ∨ i.c = 110 ∨ i.c = 113 ∨ i.c = 122) :
    callMain false (b!"get" :: ws ++ tail) { reset := true } =
      .run (.get (lastArg 111 items)
        ⟨decide (times 110 items % 2 = 1), decide (times 113 items % 2 = 1), decide (times 122 items % 2 = 1)⟩
        id) := by
  have h := C78_options b!"ho:nqz" b!"get" items ws tail [id] true Main.getOpt (none, ⟨false, false, false⟩)
    (fun a args =>
        match args with
        | [id] => .run (.get a.1 a.2 id)
        | _ => .exit 1) hw ht
  rw [get_fold items hh] at h
  simp only [Bool.false_xor, Option.or_none] at h
  exact h

/-- C78.  `get` without an ID, or with more than one, does nothing. -/
theorem C78_get_one (items : List Item) (ws tail rest : List Bytes) (hw : Words b!"ho:nqz" items ws)
    (ht : Behind tail rest) (h1 : rest.length ≠ 1) :
    callMain false (b!"get" :: ws ++ tail) { reset := true } = .exit 1 := by
  have h := C78_options b!"ho:nqz" b!"get" items ws tail rest true Main.getOpt (none, ⟨false, false, false⟩)
    (fun a args =>
        match args with
        | [id] => .run (.get a.1 a.2 id)
        | _ => .exit 1) hw ht
  have e : callMain false (b!"get" :: ws ++ tail) { reset := true } = _ := h
  rw [e]
  split
  · rfl
  · match rest, h1 with
    | [], _ => rfl
    | [_], h1 => exact absurd rfl h1
    | _ :: _ :: _, _ => rfl

/-! ## `store` -/

/-- An option of `store` on the command line. -/
def storeItem : MainStore.Opt → Item
  | .i a => ⟨105, some a⟩
  | .m a => ⟨109, some a⟩
  | .t a => ⟨116, some a⟩
  | .r a => ⟨114, some a⟩
  | .help => ⟨104, none⟩
  | .unknown => ⟨63, none⟩

theorem store_fold (os : List MainStore.Opt) (hu : MainStore.Opt.unknown ∉ os) : ∀ a : MainStore.Args,
    (os.map storeItem).foldlM (fun a i => if i.c = 104 then none else Main.storeOpt a i) a =
      MainStore.options os a := by
  induction os with
  | nil => intro a; rfl
  | cons o os ih =>
    intro a
    have hl := ih (fun h => hu (by simp [h]))
    have key : (if (storeItem o).c = 104 then none else Main.storeOpt a (storeItem o)) = MainStore.option a o := by
      cases o with
      | unknown => exact absurd (by simp) hu
      | _ => rfl
    rw [List.map_cons, List.foldlM_cons, key, MainStore.options]
    cases MainStore.option a o with
    | none => rfl
    | some b => exact hl b

/-- What `store` reads: the standard input, or one file. -/
def storeFile (a : MainStore.Args) : List Bytes → Outcome
  | [] => .run (.store a none)
  | [f] => .run (.store a (if f = b!"-" then none else some f))
  | _ => .exit 1

/-- C78.  `store` gets the options `os`, which Model/MainStore.lean starts with, however they are
    written. -/
theorem C78_store (os : List MainStore.Opt) (hu : MainStore.Opt.unknown ∉ os) (ws tail rest : List Bytes)
    (hw : Words b!"hi:m:t:r:" (os.map storeItem) ws) (ht : Behind tail rest) :
    callMain false (b!"store" :: ws ++ tail) { reset := true } =
      match MainStore.options os MainStore.noArgs with
      | none => .exit 1
      | some a => storeFile a rest := by
  have h := C78_options b!"hi:m:t:r:" b!"store" (os.map storeItem) ws tail rest true Main.storeOpt
    MainStore.noArgs
    (fun a args =>
        match args with
        | [] => .run (.store a none)
        | [f] => .run (.store a (if f = b!"-" then none else some f))
        | _ => .exit 1) hw ht
  rw [store_fold os hu] at h
  have e : callMain false (b!"store" :: ws ++ tail) { reset := true } = _ := h
  rw [e]
  cases MainStore.options os MainStore.noArgs with
  | none => rfl
  | some a =>
    match rest with
    | [] => rfl
    | [_] => rfl
    | _ :: _ :: _ => rfl

/-! ## The other commands -/

theorem filter_fold (items : List Item) (hi : ∀ i ∈ items, i.c = 111 ∨ i.c = 114 ∨ i.c = 115 ∨ i.c = 118) :
    ∀ (o : Option Bytes) (x y z : Bool),
    items.foldlM (fun a i => if i.c = 104 then none else Main.filterOpt a i) ⟨o, x, y, z⟩ =
      some ⟨(lastArg 111 items).or o, x ^^ decide (times 114 items % 2 = 1), y ^^ decide (times 115 items % 2 = 1),
        z ^^ decide (times 118 items % 2 = 1)⟩ := by
  induction items with
  | nil => intro o x y z; simp [lastArg, times]
  | cons i l ih =>
    intro o n q z
    have hl := ih (fun x hx => hi x (by simp [hx]))
    have par : ∀ (b : Bool) (m : Nat), (b ^^ decide ((1 + m) % 2 = 1)) = (!b ^^ decide (m % 2 = 1)) := by
      intro b m
      rcases Nat.mod_two_eq_zero_or_one m with h | h
      · have : (1 + m) % 2 = 1 := by omega
        simp [h, this]
      · have : (1 + m) % 2 = 0 := by omega
        simp [h, this]
    have step : ∀ a b, (if i.c = 104 then none else Main.filterOpt a i) = some b →
        (i :: l).foldlM (fun a i => if i.c = 104 then none else Main.filterOpt a i) a =
          l.foldlM (fun a i => if i.c = 104 then none else Main.filterOpt a i) b := by
      intro a b e
      rw [List.foldlM_cons, e]
      rfl
    rcases hi i (by simp) with h | h | h | h
    · rw [step _ ⟨some i.text, n, q, z⟩ (by simp [h, Main.filterOpt]), hl]
      simp only [h, times_cons, lastArg_cons]
      cases lastArg 111 l <;> simp
    · rw [step _ ⟨o, !n, q, z⟩ (by simp [h, Main.filterOpt]), hl]
      simp only [h, times_cons, lastArg_cons]
      simp [par]
    · rw [step _ ⟨o, n, !q, z⟩ (by simp [h, Main.filterOpt]), hl]
      simp only [h, times_cons, lastArg_cons]
      simp [par]
    · rw [step _ ⟨o, n, q, !z⟩ (by simp [h, Main.filterOpt]), hl]
      simp only [h, times_cons, lastArg_cons]
      simp [par]

/-- C78.  `filter` with any options but `-h`. -/
theorem C78_filter (items : List Item) (ws tail rest : List Bytes) (hw : Words b!"ho:rsv" items ws)
    (ht : Behind tail rest) (hh : ∀ i ∈ items, i.c = 111 ∨ i.c = 114 ∨ i.c = 115 ∨ i.c = 118) :
    callMain false (b!"filter" :: ws ++ tail) { reset := true } =
      .run (.filter (lastArg 111 items) (decide (times 114 items % 2 = 1)) (decide (times 115 items % 2 = 1))
        (decide (times 118 items % 2 = 1)) rest) := by
  have h := C78_options b!"ho:rsv" b!"filter" items ws tail rest true Main.filterOpt {}
    (fun a args => .run (.filter a.out a.r a.s a.v args)) hw ht
  have hf := filter_fold items hh none false false false
  rw [hf] at h
  simp only [Bool.false_xor, Option.or_none] at h
  exact h

/-- C78.  `dumpindex`: a `-t` has to be one of three words, and the last one counts. -/
theorem C78_dumpindex (items : List Item) (ws tail rest : List Bytes) (hw : Words b!"ht:" items ws)
    (ht : Behind tail rest) (hh : ∀ i ∈ items, i.c = 116) :
    callMain false (b!"dumpindex" :: ws ++ tail) { reset := true } =
      if items.all (fun i => decide (i.text ∈ [b!"metadata", b!"resource", b!"warcinfo"])) then
        .run (.dumpindex (lastArg 116 items) rest)
      else .exit 1 := by
  have h := C78_options b!"ht:" b!"dumpindex" items ws tail rest true Main.dumpOpt none
    (fun a args => .run (.dumpindex a args)) hw ht
  have hf : ∀ (l : List Item) (o : Option Bytes), (∀ i ∈ l, i.c = 116) →
      l.foldlM (fun a i => if i.c = 104 then none else Main.dumpOpt a i) o =
        if l.all (fun i => decide (i.text ∈ [b!"metadata", b!"resource", b!"warcinfo"])) then
          some ((lastArg 116 l).or o)
        else none := by
    intro l
    induction l with
    | nil => intro o _; simp [lastArg]
    | cons i l ih =>
      intro o hl
      have hc := hl i (by simp)
      have hl' := ih (o := some i.text) (fun x hx => hl x (by simp [hx]))
      rw [List.foldlM_cons, if_neg (by rw [hc]; decide), Main.dumpOpt, List.all_cons]
      by_cases ht : i.text = b!"metadata" ∨ i.text = b!"resource" ∨ i.text = b!"warcinfo"
      · rw [if_pos ht]
        have hd : decide (i.text ∈ [b!"metadata", b!"resource", b!"warcinfo"]) = true := by
          simpa using ht
        show List.foldlM _ (some i.text) l = _
        rw [hl', hd, Bool.true_and, lastArg_cons, if_pos hc]
        cases lastArg 116 l <;> simp
      · rw [if_neg ht]
        have hd : decide (i.text ∈ [b!"metadata", b!"resource", b!"warcinfo"]) = false := by
          simpa using ht
        rw [hd]
        rfl
  have hff := hf items none hh
  rw [hff] at h
  have e : callMain false (b!"dumpindex" :: ws ++ tail) { reset := true } = _ := h
  rw [e]
  by_cases hx : (items.all (fun i => decide (i.text ∈ [b!"metadata", b!"resource", b!"warcinfo"]))) = true
  · simp only [if_pos hx, Option.or_none]
  · simp only [if_neg hx]

/-- C78.  `byid` and `audit`. -/
theorem C78_byid (items : List Item) (ws tail rest : List Bytes) (ht : Behind tail rest) :
    (Words b!"he" items ws → (∀ i ∈ items, i.c = 101) →
      callMain false (b!"byid" :: ws ++ tail) { reset := true } = .run (.byid (decide (items ≠ [])) rest)) ∧
    (Words b!"i:h" items ws → (∀ i ∈ items, i.c = 105) →
      callMain false (b!"audit" :: ws ++ tail) { reset := true } =
        .run (.audit (items.any (fun i => i.text == b!"ignore-metadata-record-id")) rest)) := by
  refine ⟨fun hw hh => ?_, fun hw hh => ?_⟩
  · have h := C78_options b!"he" b!"byid" items ws tail rest true (fun (_ : Bool) _ => some true) false
      (fun a args => .run (.byid a args)) hw ht
    have hf : ∀ (l : List Item) (o : Bool), (∀ i ∈ l, i.c = 101) →
        l.foldlM (fun (a : Bool) (i : Item) => if i.c = 104 then none else some true) o = some (o || decide (l ≠ [])) := by
      intro l
      induction l with
      | nil => intro o _; simp
      | cons i l ih =>
        intro o hl
        rw [List.foldlM_cons, if_neg (by rw [hl i (by simp)]; decide)]
        show List.foldlM _ true l = _
        rw [ih true (fun x hx => hl x (by simp [hx]))]
        simp
    rw [hf items false hh] at h
    simp only [Bool.false_or] at h
    exact h
  · have h := C78_options b!"i:h" b!"audit" items ws tail rest true
      (fun (a : Bool) i => some (a || i.text == b!"ignore-metadata-record-id")) false
      (fun a args => .run (.audit a args)) hw ht
    have hf : ∀ (l : List Item) (o : Bool), (∀ i ∈ l, i.c = 105) →
        l.foldlM (fun (a : Bool) (i : Item) => if i.c = 104 then none
          else some (a || i.text == b!"ignore-metadata-record-id")) o =
          some (o || l.any (fun i => i.text == b!"ignore-metadata-record-id")) := by
      intro l
      induction l with
      | nil => intro o _; simp
      | cons i l ih =>
        intro o hl
        rw [List.foldlM_cons, if_neg (by rw [hl i (by simp)]; decide)]
        show List.foldlM _ (o || i.text == b!"ignore-metadata-record-id") l = _
        rw [ih _ (fun x hx => hl x (by simp [hx])), List.any_cons, Bool.or_assoc]
    rw [hf items false hh] at h
    simp only [Bool.false_or] at h
    exact h

/-- C78.  The commands that have no options. -/
theorem C78_simple (tail rest : List Bytes) (ht : Behind tail rest) :
    callMain false (b!"cgi" :: tail) { reset := true } = (if rest = [] then .run .cgi else .exit 1) ∧
    (∀ json, callMain json (b!"info" :: tail) { reset := true } = if rest = [] then .run (.info json) else .exit 1) ∧
    callMain false (b!"stevedore" :: tail) { reset := true } = (if rest = [] then .run .stevedore else .exit 1) ∧
    callMain false (b!"rebuild" :: tail) { reset := true } = .run (.rebuild rest) ∧
    callMain false (b!"reindex" :: tail) { reset := true } = .run (.reindex rest) ∧
    callMain false (b!"stow" :: tail) { reset := true } = (if rest = [] then .exit 1 else .run (.stow rest)) ∧
    (rest = [] → callMain false (b!"mksilo" :: tail) { reset := true } = .exit 1) ∧
    (∀ n r, rest = n :: r → callMain false (b!"mksilo" :: tail) { reset := true } = .run (.mksilo n)) ∧
    (rest = [] → callMain false (b!"housekeeping" :: tail) { reset := true } = .run .housekeeping) := by
  have h : ∀ (ostr name : Bytes) (k : Unit → List Bytes → Outcome),
      withOptions ostr (name :: tail) { reset := true } Main.noOpt () k = k () rest := by
    intro ostr name k
    have := C78_options ostr name [] [] tail rest true Main.noOpt () k .nil ht
    simpa using this
  refine ⟨h b!"h" b!"cgi" (fun _ args => if args = [] then .run .cgi else .exit 1), ?_,
    h b!"h" b!"stevedore" (fun _ args => if args = [] then .run .stevedore else .exit 1),
    h b!"h" b!"rebuild" (fun _ args => .run (.rebuild args)), h b!"h" b!"reindex" (fun _ args => .run (.reindex args)),
    h b!"c:d:hr:" b!"stow" (fun _ args => if args = [] then .exit 1 else .run (.stow args)), ?_, ?_, ?_⟩
  · intro json
    have e : callMain json (b!"info" :: tail) { reset := true } =
        withOptions b!"h" (b!"info" :: tail) { reset := true } Main.noOpt ()
          (fun _ args => if args = [] then .run (.info json) else .exit 1) := by
      cases json <;> rfl
    rw [e, h]
  · rintro rfl
    exact h b!"h" b!"mksilo" (fun _ args => match args with
      | [] => .exit 1
      | n :: _ => .run (.mksilo n))
  · rintro n r rfl
    exact h b!"h" b!"mksilo" (fun _ args => match args with
      | [] => .exit 1
      | n :: _ => .run (.mksilo n))
  · rintro rfl
    exact h b!"h" b!"housekeeping" (fun _ args => if args = [] then .run .housekeeping else .abort)

/-! ## Only what is named is done -/

/-- The name of a command. -/
def cmdName : Cmd → Bytes
  | .audit _ _ => b!"audit"
  | .byid _ _ => b!"byid"
  | .cgi => b!"cgi"
  | .dumpindex _ _ => b!"dumpindex"
  | .filter _ _ _ _ _ => b!"filter"
  | .get _ _ _ => b!"get"
  | .housekeeping => b!"housekeeping"
  | .info _ => b!"info"
  | .mksilo _ => b!"mksilo"
  | .rebuild _ => b!"rebuild"
  | .reindex _ => b!"reindex"
  | .stevedore => b!"stevedore"
  | .store _ _ => b!"store"
  | .stow _ => b!"stow"
  | .testbytes _ => b!"_testbytes"

theorem withOptions_run {σ : Type} {ostr : Bytes} {argv : List Bytes} {s : St} {f : σ → Item → Option σ}
    {init : σ} {k : σ → List Bytes → Outcome} {c : Cmd} (h : withOptions ostr argv s f init k = .run c) :
    ∃ a args, k a args = .run c := by
  unfold withOptions at h
  split at h
  · cases h
  · split at h
    · cases h
    · next a _ => exact ⟨a, _, h⟩

theorem callMain_named {json : Bool} {argv : List Bytes} {s : St} {c : Cmd}
    (h : callMain json argv s = .run c) : argv.head? = some (cmdName c) ∧ (json = true → cmdName c = b!"info") := by
  unfold callMain at h
  split at h
  · cases h
  · next m hm =>
    have hmem := List.mem_of_find?_eq_some hm
    have hname : some m.1 = argv.head? := by simpa using List.find?_some hm
    rw [← hname]
    split at h
    · cases h
    · next hj =>
      have key : m.1 = cmdName c ∧ (m.2.1 = true → cmdName c = b!"info") := by
        simp only [Main.mains, List.mem_cons, List.not_mem_nil, or_false] at hmem
        rcases hmem with rfl | rfl | rfl | rfl | rfl | rfl | rfl | rfl | rfl | rfl | rfl | rfl | rfl | rfl | rfl
        all_goals
          simp only at h
          obtain ⟨a, args, hk⟩ := withOptions_run h
          try simp only at hk
          try split at hk
          all_goals
            cases hk
          all_goals
            refine ⟨rfl, ?_⟩
            intro hx
            first
              | rfl
              | cases hx
      refine ⟨by rw [key.1], fun hjs => key.2 ?_⟩
      simpa [hjs] using hj

/-! ## Global options and the configuration -/

theorem global_fold (items : List Item) (hi : ∀ i ∈ items, i.c = 106 ∨ i.c = 99) : ∀ g : Globals,
    items.foldlM globalOpt g =
      some { json := g.json || decide (0 < times 106 items), cf := (lastArg 99 items).or g.cf } := by
  induction items with
  | nil => intro g; simp [times, lastArg]
  | cons i l ih =>
    intro g
    have hl := ih (fun x hx => hi x (by simp [hx]))
    rcases hi i (by simp) with h | h
    · simp only [List.foldlM_cons, h, globalOpt, times_cons, lastArg_cons]
      simp [hl]
    · simp only [List.foldlM_cons, h, globalOpt, times_cons, lastArg_cons]
      simp [hl]

theorem main_eq (fp : Vnum.FP) (fmtOk : Bytes → Bool) (W : Main.World) (a0 : Bytes) (items : List Item)
    (ws tail rest : List Bytes) (hw : Words b!"c:hj" items ws) (ht : Behind tail rest)
    (hh : ∀ i ∈ items, i.c = 106 ∨ i.c = 99) :
    Main.main fp fmtOk W (a0 :: ws ++ tail) =
      mainRest fp fmtOk W { json := decide (0 < times 106 items), cf := lastArg 99 items } rest := by
  obtain ⟨t, h1, h2⟩ := C78_getopt b!"c:hj" a0 items ws tail rest false hw ht
  unfold Main.main
  rw [h1]
  simp only [global_fold items hh, h2, Bool.false_or, Option.or_none]

/-- C78.  The whole command line: the global options, however written, then the command with its
    arguments.  With a `-c` the (last) named file is the configuration; if there is anything
    wrong with it, the program exits with status 2.  What is run is what `call_main` gives. -/
theorem C78_main (fp : Vnum.FP) (fmtOk : Bytes → Bool) (W : Main.World) (a0 : Bytes) (items : List Item)
    (ws tail args : List Bytes) (name cf : Bytes) (hw : Words b!"c:hj" items ws)
    (ht : Behind tail (name :: args)) (hh : ∀ i ∈ items, i.c = 106 ∨ i.c = 99)
    (hc : lastArg 99 items = some cf) (r : Aardwarc.NewRes)
    (hr : Aardwarc.aardwarcNew fp fmtOk (W.file cf) = .ok r) :
    Main.main fp fmtOk W (a0 :: ws ++ tail) =
      match r with
      | .error _ => .ok (.exit 2)
      | .ok p => .ok (match callMain (decide (0 < times 106 items)) (name :: args) { reset := true } with
        | .exit n => .exit n
        | .abort => .abort
        | .run c => .run p c) := by
  rw [main_eq fp fmtOk W a0 items ws tail (name :: args) hw ht hh, mainRest, if_neg (by simp), hc]
  cases r with
  | error e =>
    simp [choose, conf, hr]
  | ok p =>
    simp only [choose, conf, hr, Res.ok_bind, Res.pure_eq]
    cases callMain (decide (0 < times 106 items)) (name :: args) { reset := true } <;> rfl

/-- C78.  With a `-c`, no other file is looked at. -/
theorem C78_only (fp : Vnum.FP) (fmtOk : Bytes → Bool) (W W' : Main.World) (a0 : Bytes) (items : List Item)
    (ws tail rest : List Bytes) (cf : Bytes) (hw : Words b!"c:hj" items ws) (ht : Behind tail rest)
    (hh : ∀ i ∈ items, i.c = 106 ∨ i.c = 99) (hc : lastArg 99 items = some cf)
    (hf : W.file cf = W'.file cf) :
    Main.main fp fmtOk W (a0 :: ws ++ tail) = Main.main fp fmtOk W' (a0 :: ws ++ tail) := by
  rw [main_eq fp fmtOk W a0 items ws tail rest hw ht hh, main_eq fp fmtOk W' a0 items ws tail rest hw ht hh]
  simp only [mainRest, hc, choose, conf, hf]

/-- C78.  Without a command there is nothing to run: exit status 1, whatever the options and the files. -/
theorem C78_none (fp : Vnum.FP) (fmtOk : Bytes → Bool) (W : Main.World) (a0 : Bytes) (items : List Item)
    (ws tail : List Bytes) (hw : Words b!"c:hj" items ws) (ht : Behind tail [])
    (hh : ∀ i ∈ items, i.c = 106 ∨ i.c = 99) : Main.main fp fmtOk W (a0 :: ws ++ tail) = .ok (.exit 1) := by
  rw [main_eq fp fmtOk W a0 items ws tail [] hw ht hh, mainRest, if_pos rfl]

/-- C78.  Without a `-c`, a good file in the home directory is the configuration. -/
theorem C78_home (fp : Vnum.FP) (fmtOk : Bytes → Bool) (W : Main.World) (a0 : Bytes) (items : List Item)
    (ws tail args : List Bytes) (name home : Bytes) (p : Aardwarc.Params) (hw : Words b!"c:hj" items ws)
    (ht : Behind tail (name :: args)) (hh : ∀ i ∈ items, i.c = 106)
    (h1 : W.home = some home) (h2 : home.length ≤ 1000)
    (h3 : Aardwarc.aardwarcNew fp fmtOk (W.file (home ++ b!"/.aardwarc.conf")) = .ok (.ok p)) :
    Main.main fp fmtOk W (a0 :: ws ++ tail) =
      .ok (match callMain (decide (0 < times 106 items)) (name :: args) { reset := true } with
        | .exit n => .exit n
        | .abort => .abort
        | .run c => .run p c) := by
  have hl : lastArg 99 items = none := by
    have : items.filter (fun i => i.c == 99) = [] := by
      rw [List.filter_eq_nil_iff]
      intro i hi
      simp [hh i hi]
    simp [lastArg, this]
  rw [main_eq fp fmtOk W a0 items ws tail (name :: args) hw ht (fun i hi => Or.inl (hh i hi)), mainRest,
    if_neg (by simp), hl]
  have hd : decide (home.length + 15 < 1024) = true := by
    rw [decide_eq_true_eq]; omega
  simp only [choose, homeConf, h1, hd, Res.check_true, conf, h3, Res.ok_bind, Res.pure_eq, Main.orElse]
  cases callMain (decide (0 < times 106 items)) (name :: args) { reset := true } <;> rfl

/-- C78.  For all command lines: nothing is done to the archive but what the first argument
    behind the global options names, and with `-j` that is `info`. -/
theorem C78_named (fp : Vnum.FP) (fmtOk : Bytes → Bool) (W : Main.World) (argv : List Bytes)
    (p : Aardwarc.Params) (c : Cmd) (h : Main.main fp fmtOk W argv = .ok (.run p c)) :
    ∃ items t, getopts b!"c:hj" argv (fuelOf argv) {} = some (items, t) ∧
      argv[t.optind]? = some (cmdName c) := by
  unfold Main.main at h
  split at h
  · cases h
  · next items t hit =>
    refine ⟨items, t, hit, ?_⟩
    split at h
    · cases h
    · next g _ =>
      unfold mainRest at h
      split at h
      · cases h
      · simp only [Res.bind_eq_ok] at h
        obtain ⟨x, _, h⟩ := h
        split at h
        · cases h
        · next q st _ =>
          have ha : Main.act q (callMain g.json (argv.drop t.optind) { reset := true }) = .run p c := by
            simpa using h
          cases hcm : callMain g.json (argv.drop t.optind) { reset := true } with
          | exit n => rw [hcm] at ha; cases ha
          | abort => rw [hcm] at ha; cases ha
          | run d =>
            rw [hcm] at ha
            cases ha
            have := (callMain_named hcm).1
            rw [List.head?_drop] at this
            exact this

/-- C78.  With `-j`, however often and however written, only `info` is run. -/
theorem C78_json (fp : Vnum.FP) (fmtOk : Bytes → Bool) (W : Main.World) (a0 : Bytes) (items : List Item)
    (ws tail rest : List Bytes) (p : Aardwarc.Params) (c : Cmd) (hw : Words b!"c:hj" items ws)
    (ht : Behind tail rest) (hh : ∀ i ∈ items, i.c = 106 ∨ i.c = 99) (hj : ∃ i ∈ items, i.c = 106)
    (h : Main.main fp fmtOk W (a0 :: ws ++ tail) = .ok (.run p c)) :
    cmdName c = b!"info" ∧ rest.head? = some b!"info" := by
  rw [main_eq fp fmtOk W a0 items ws tail rest hw ht hh] at h
  have hd : decide (0 < times 106 items) = true := by
    obtain ⟨i, hi, hc⟩ := hj
    rw [decide_eq_true_eq]
    exact List.length_pos_of_mem (a := i) (by simp [hi, hc])
  rw [hd] at h
  unfold mainRest at h
  split at h
  · cases h
  · simp only [Res.bind_eq_ok] at h
    obtain ⟨x, _, h⟩ := h
    split at h
    · cases h
    · next q st _ =>
      have ha : Main.act q (callMain true rest { reset := true }) = .run p c := by
        simpa using h
      cases hcm : callMain true rest { reset := true } with
      | exit n => rw [hcm] at ha; cases ha
      | abort => rw [hcm] at ha; cases ha
      | run d =>
        rw [hcm] at ha
        cases ha
        have := callMain_named hcm
        exact ⟨this.2 rfl, by rw [this.1, this.2 rfl]⟩

/-! ## The jobs of `stevedore` -/

/-- C78.  The jobs that `stevedore` starts in children (main_stevedore.c:219, 267, 299-304), with
    the variables of getopt(3) as its own loop has left them (`stevedore` has no arguments), are
    those of Model/StowArch.lean, for every reference: also for one that begins with "-". -/
theorem C78_jobs (ref : Bytes) :
    ∃ t, getopts b!"h" [b!"stevedore"] (fuelOf [b!"stevedore"]) { reset := true } = some ([], t) ∧
      callMain false [b!"filter", b!"-"] t = .run (.filter none false false false [b!"-"]) ∧
      callMain false [b!"store", b!"-"] t = .run (.store MainStore.noArgs none) ∧
      (∃ a, MainStore.options (StowArch.metaOpts ref) MainStore.noArgs = some a ∧
        callMain false [b!"store", b!"-t", b!"metadata", b!"-m", b!"application/json", b!"-r", ref, b!"-"] t =
          .run (.store a none)) := by
  refine ⟨{ optind := 1 }, by decide, by decide +kernel, by decide +kernel,
    ⟨some .metadata, b!"application/json", some ref, none⟩, rfl, ?_⟩
  have hw : Words b!"hi:m:t:r:" ((StowArch.metaOpts ref).map storeItem)
      [b!"-t", b!"metadata", b!"-m", b!"application/json", b!"-r", ref] := by
    have harg : ∀ c ∈ [(116 : UInt8), 109, 114], TakesArg b!"hi:m:t:r:" c := by
      intro c hc
      simp only [List.mem_cons, List.not_mem_nil, or_false] at hc
      rcases hc with rfl | rfl | rfl
      · exact ⟨by decide, by decide, b!"hi:m:", b!":r:", by decide, by decide, by decide⟩
      · exact ⟨by decide, by decide, b!"hi:", b!":t:r:", by decide, by decide, by decide⟩
      · exact ⟨by decide, by decide, b!"hi:m:t:", b!":", by decide, by decide, by decide⟩
    refine .separate [] 116 _ _ _ (by simp) (harg 116 (by simp)) ?_
    refine .separate [] 109 _ _ _ (by simp) (harg 109 (by simp)) ?_
    exact .separate [] 114 _ _ _ (by simp) (harg 114 (by simp)) .nil
  have h := C78_store (StowArch.metaOpts ref) (by simp [StowArch.metaOpts]) _ [b!"-"] [b!"-"] hw
    (.other b!"-" [] (by intro c p h; cases h))
  have e : MainStore.options (StowArch.metaOpts ref) MainStore.noArgs =
    some ⟨some .metadata, b!"application/json", some ref, none⟩ := rfl
  rw [e] at h
  exact h

end Verif.Props
