/-
Property C59: what the command `store` accepts, and what it makes of it.
-/
import Verif.Model.MainStore
import Verif.Props.Aardwarc
import Verif.Props.ReindexArch

namespace Verif.Props
open Verif Header Gzip Ident Index Wsilo Segjob Getjob Spec Inflate MainStore
open _root_.Verif.Commit (upd Silo)

/-! ### The options -/

/-- The arguments of one kind of option, in order. -/
def iArgs (os : List Opt) : List Bytes := os.filterMap fun o => match o with | .i a => some a | _ => none
def mArgs (os : List Opt) : List Bytes := os.filterMap fun o => match o with | .m a => some a | _ => none
def tArgs (os : List Opt) : List Bytes := os.filterMap fun o => match o with | .t a => some a | _ => none
def rArgs (os : List Opt) : List Bytes := os.filterMap fun o => match o with | .r a => some a | _ => none

/-- The list has at most one element, which is this one. -/
def AtMost {α : Type} (l : List α) (x : Option α) : Prop := l = x.toList

/-- The type that the arguments of `-t` ask for. -/
def TypeOf (l : List Bytes) (t : Option WType) : Prop :=
  match t with
  | none => l = []
  | some t => ∃ a, l = [a] ∧ SameText a t.text

/-- The meaning of the options: `-i`, `-r` and `-t` at most once, of several `-m` the last one counts, nothing else is given. -/
structure Means (os : List Opt) (a : Args) : Prop where
  only : ∀ o ∈ os, o ≠ .help ∧ o ≠ .unknown
  i : AtMost (iArgs os) a.i
  r : AtMost (rArgs os) a.r
  t : TypeOf (tArgs os) a.wt
  m : a.mt = (mArgs os).getLast?.getD b!"application/octet-stream"

theorem strcasecmp_eq {a b : Bytes} : strcasecmp a b = .eq ↔ SameText a b := by
  rw [← strcasecmp_beq, beq_iff_eq]

theorem not_both {a : Bytes} (h1 : SameText a b!"resource") (h2 : SameText a b!"metadata") : False := by
  unfold SameText at h1 h2
  rw [h1] at h2
  revert h2
  decide

/-- The options from here on, when these variables are set already. -/
theorem options_iff (os : List Opt) : ∀ (a b : Args), options os a = some b ↔
    (∀ o ∈ os, o ≠ .help ∧ o ≠ .unknown) ∧ a.i.toList ++ iArgs os = b.i.toList ∧ a.r.toList ++ rArgs os = b.r.toList ∧
    b.mt = (mArgs os).getLast?.getD a.mt ∧
    ((a.wt = b.wt ∧ tArgs os = []) ∨ (a.wt = none ∧ ∃ t, b.wt = some t ∧ ∃ x, tArgs os = [x] ∧ SameText x t.text)) := by
  induction os with
  | nil =>
    intro a b
    cases a; cases b
    simp only [options, Option.some.injEq, Args.mk.injEq, iArgs, rArgs, mArgs, tArgs, List.filterMap_nil, List.append_nil, List.getLast?_nil, Option.getD_none]
    constructor
    · rintro ⟨h1, h2, h3, h4⟩
      refine ⟨by simp, by rw [h4], by rw [h3], h2.symm, .inl ⟨h1, trivial⟩⟩
    · rintro ⟨-, h1, h2, h3, h4⟩
      have inj : ∀ x y : Option Bytes, x.toList = y.toList → x = y := by
        intro x y h
        cases x <;> cases y <;> simp_all
      refine ⟨?_, h3.symm, inj _ _ h2, inj _ _ h1⟩
      rcases h4 with ⟨h, -⟩ | ⟨-, t, -, x, h, -⟩
      · exact h
      · cases h
  | cons o os ih =>
    intro a b
    rw [options]
    cases o with
    | help => simp [option]
    | unknown => simp [option]
    | i x =>
      rw [option]
      cases hi : a.i with
      | some y =>
        rw [if_neg (by simp)]
        simp only [reduceCtorEq, false_iff]
        rintro ⟨-, h, -⟩
        have : iArgs (Opt.i x :: os) = x :: iArgs os := rfl
        rw [this] at h
        cases hb : b.i <;> simp [hb] at h
      | none =>
        rw [if_pos rfl]
        simp only
        rw [ih]
        have e1 : iArgs (Opt.i x :: os) = x :: iArgs os := rfl
        have e2 : rArgs (Opt.i x :: os) = rArgs os := rfl
        have e3 : tArgs (Opt.i x :: os) = tArgs os := rfl
        have e4 : mArgs (Opt.i x :: os) = mArgs os := rfl
        rw [e1, e2, e3, e4]
        simp
    | r x =>
      rw [option]
      cases hi : a.r with
      | some y =>
        rw [if_neg (by simp)]
        simp only [reduceCtorEq, false_iff]
        rintro ⟨-, -, h, -⟩
        have : rArgs (Opt.r x :: os) = x :: rArgs os := rfl
        rw [this] at h
        cases hb : b.r <;> simp [hb] at h
      | none =>
        rw [if_pos rfl]
        simp only
        rw [ih]
        have e1 : rArgs (Opt.r x :: os) = x :: rArgs os := rfl
        have e2 : iArgs (Opt.r x :: os) = iArgs os := rfl
        have e3 : tArgs (Opt.r x :: os) = tArgs os := rfl
        have e4 : mArgs (Opt.r x :: os) = mArgs os := rfl
        rw [e1, e2, e3, e4]
        simp
    | m x =>
      rw [option]
      simp only
      rw [ih]
      have e1 : rArgs (Opt.m x :: os) = rArgs os := rfl
      have e2 : iArgs (Opt.m x :: os) = iArgs os := rfl
      have e3 : tArgs (Opt.m x :: os) = tArgs os := rfl
      have e4 : mArgs (Opt.m x :: os) = x :: mArgs os := rfl
      rw [e1, e2, e3, e4, List.getLast?_cons]
      simp
    | t x =>
      have e1 : rArgs (Opt.t x :: os) = rArgs os := rfl
      have e2 : iArgs (Opt.t x :: os) = iArgs os := rfl
      have e3 : tArgs (Opt.t x :: os) = x :: tArgs os := rfl
      have e4 : mArgs (Opt.t x :: os) = mArgs os := rfl
      rw [e1, e2, e3, e4, option]
      cases hw : a.wt with
      | some t => simp
      | none =>
        rw [if_neg (by simp)]
        have cong : ∀ {A B C D E F : Prop}, (E ↔ F) → ((A ∧ B ∧ C ∧ D ∧ E) ↔ (A ∧ B ∧ C ∧ D ∧ F)) := fun h => by rw [h]
        have hall : (∀ o ∈ Opt.t x :: os, o ≠ .help ∧ o ≠ .unknown) ↔ (∀ o ∈ os, o ≠ .help ∧ o ≠ .unknown) := by simp
        rw [hall]
        by_cases h1 : SameText x b!"resource"
        · rw [if_pos (strcasecmp_eq.2 h1)]
          simp only
          rw [ih]
          apply cong
          constructor
          · rintro (⟨h3, h4⟩ | ⟨h3, -⟩)
            · exact .inr ⟨trivial, .resource, h3.symm, x, by rw [h4], h1⟩
            · cases h3
          · rintro (⟨-, h⟩ | ⟨-, t, h3, y, h4, h5⟩)
            · exact absurd h (by simp)
            · rw [List.cons.injEq] at h4
              obtain ⟨rfl, h4⟩ := h4
              cases t with
              | resource => exact .inl ⟨h3.symm, h4⟩
              | metadata => exact absurd h5 (fun h => not_both h1 h)
        · rw [if_neg (fun h => h1 (strcasecmp_eq.1 h))]
          by_cases h2 : SameText x b!"metadata"
          · rw [if_pos (strcasecmp_eq.2 h2)]
            simp only
            rw [ih]
            apply cong
            constructor
            · rintro (⟨h3, h4⟩ | ⟨h3, -⟩)
              · exact .inr ⟨trivial, .metadata, h3.symm, x, by rw [h4], h2⟩
              · cases h3
            · rintro (⟨-, h⟩ | ⟨-, t, h3, y, h4, h5⟩)
              · exact absurd h (by simp)
              · rw [List.cons.injEq] at h4
                obtain ⟨rfl, h4⟩ := h4
                cases t with
                | metadata => exact .inl ⟨h3.symm, h4⟩
                | resource => exact absurd h5 h1
          · rw [if_neg (fun h => h2 (strcasecmp_eq.1 h))]
            simp only [reduceCtorEq, false_iff]
            rintro ⟨-, -, -, -, ⟨-, h⟩ | ⟨-, t, -, y, h4, h5⟩⟩
            · exact absurd h (by simp)
            · rw [List.cons.injEq] at h4
              obtain ⟨rfl, h4⟩ := h4
              cases t with
              | resource => exact h1 h5
              | metadata => exact h2 h5

/-- The options are taken for what they mean, and nothing else is accepted. -/
theorem C59_options (os : List Opt) (a : Args) : options os noArgs = some a ↔ Means os a := by
  rw [options_iff]
  constructor
  · rintro ⟨h1, h2, h3, h4, h5⟩
    refine ⟨h1, h2, h3, ?_, h4⟩
    unfold TypeOf
    rcases h5 with ⟨h, h'⟩ | ⟨-, t, h, x, h', h''⟩
    · rw [← h]; exact h'
    · rw [h]; exact ⟨x, h', h''⟩
  · rintro ⟨h1, h2, h3, h4, h5⟩
    refine ⟨h1, h2, h3, h5, ?_⟩
    unfold TypeOf at h4
    cases hw : a.wt with
    | none => rw [hw] at h4; exact .inl ⟨rfl, h4⟩
    | some t =>
      rw [hw] at h4
      obtain ⟨x, h, h'⟩ := h4
      exact .inr ⟨rfl, t, rfl, x, h, h'⟩

/-! ### What is stored -/

instance (a b : Bytes) : Decidable (SameText a b) := by
  unfold SameText
  infer_instance

/-- The section of the configuration with the mime types of this kind. -/
def mimeSection : WType → Bytes
  | .resource => b!"resource.mime-types"
  | .metadata => b!"metadata.mime-types"

/-- The type asked for; `resource` if none is. -/
def wtype (a : Args) : WType := a.wt.getD .resource

/-- A well-formed ID, with or without prefix. -/
def WellFormed (env : Env) (i : Bytes) : Prop := ∃ b, idxValidId env.pfx env.idSize i = .ok b

/-- What a reference given as `r` is written as: with the prefix. -/
def fullRef (env : Env) (r : Bytes) : Bytes := if r.length = env.idSize then env.pfx ++ r else r

/-- A request that is granted: the mime type is one of the configured ones; a resource is given neither ID nor reference; metadata
refers to an object of the archive, and the ID given, if any, is well-formed. -/
structure Granted (env : Env) (fuel : Nat) (cfg : List Config.Section) (w : World) (a : Args) (ref : Option Bytes) : Prop where
  mime : ∃ x, Config.configFind cfg (mimeSection (wtype a)) a.mt = some x
  res : wtype a = .resource → a.r = none ∧ a.i = none ∧ ref = none
  md : wtype a = .metadata → ∃ r, a.r = some r ∧ (∀ i, a.i = some i → WellFormed env i) ∧ WellFormed env r ∧ ref = some (fullRef env r) ∧
    ∃ gj, getjobNew env.ps env.pfx env.idSize fuel w (fullRef env r) = .ok (.job gj)

/-- The header of what is stored: date, mime type, type and reference, and nothing else. -/
structure Headed (env : Env) (a : Args) (ref : Option Bytes) (h : Hdr) : Prop where
  id : h.id = List.replicate env.idSize 95
  sorted : SortedF h.fields
  get : ∀ m, headerGet h m =
    if SameText m b!"WARC-Date" then some env.date else if SameText m b!"Content-Type" then some a.mt
    else if SameText m b!"WARC-Type" then some (wtype a).text
    else if SameText m b!"WARC-Refers-To" then ref.map (fun r => b!"<" ++ r ++ b!">") else none

theorem validId_iff {pfx : Bytes} {n : Nat} {i : Bytes} : validId pfx n i = true ↔ ∃ b, idxValidId pfx n i = .ok b := by
  unfold validId
  split <;> simp_all

theorem refOf_eq {env : Env} (he : EnvOk env) {r : Bytes} (hr : WellFormed env r) : refOf env.pfx env.idSize r = .ok (fullRef env r) := by
  unfold refOf fullRef
  split
  · rename_i hl
    obtain ⟨b, hb⟩ := hr
    obtain ⟨h1, h2, h3⟩ := (C11_valid_id _ _ _ _).1 hb
    have hrb : r = b := by
      rcases h1 with ⟨pre, h1, h4⟩ | ⟨-, h1⟩
      · obtain ⟨p, hp⟩ := he.slash
        have : pre.length = env.pfx.length := by simpa using congrArg List.length h4
        rw [h1, List.length_append, this, hp] at hl
        simp at hl
        omega
      · exact h1.symm
    subst hrb
    unfold digest2Ident
    rw [validId_iff.2 ⟨r, valid_uri _ _ _ h2 h3⟩]
    rfl
  · rfl

theorem checkArgs_iff {env : Env} (he : EnvOk env) {a : Args} {ref : Option Bytes} :
    checkArgs env.pfx env.idSize (wtype a) a = .ok (.go ref) ↔
      (wtype a = .resource → a.r = none ∧ a.i = none ∧ ref = none) ∧
      (wtype a = .metadata → ∃ r, a.r = some r ∧ (∀ i, a.i = some i → WellFormed env i) ∧ WellFormed env r ∧ ref = some (fullRef env r)) := by
  cases ht : wtype a with
  | resource =>
    unfold checkArgs
    simp only
    by_cases h : a.r ≠ none ∨ a.i ≠ none
    · rw [if_pos h]
      simp only [Res.ok.injEq, reduceCtorEq, false_iff, forall_const, false_implies, and_true]
      rintro ⟨h1, h2, -⟩
      rcases h with h | h
      · exact h h1
      · exact h h2
    · rw [if_neg h]
      simp only [Res.ok.injEq, MainStore.Step.go.injEq, forall_const, reduceCtorEq, false_implies, and_true]
      simp only [ne_eq, not_or, Decidable.not_not] at h
      exact ⟨fun e => ⟨h.1, h.2, e.symm⟩, fun e => e.2.2.symm⟩
  | metadata =>
    unfold checkArgs
    simp only [reduceCtorEq, false_implies, true_and, forall_const]
    cases hr : a.r with
    | none => simp
    | some r =>
      simp only
      have hi : a.i.any (fun i => !validId env.pfx env.idSize i) = true ↔ ¬ ∀ i, a.i = some i → WellFormed env i := by
        cases h : a.i with
        | none => simp
        | some i =>
          simp only [Option.any_some, Bool.not_eq_true', Option.some.injEq, forall_eq']
          unfold WellFormed
          rw [← validId_iff]
          simp
      by_cases h : ∀ i, a.i = some i → WellFormed env i
      · rw [if_neg (fun hh => hi.1 hh h)]
        by_cases hv : WellFormed env r
        · rw [if_neg (by rw [validId_iff.2 hv]; simp), refOf_eq he hv]
          simp only [Res.ok_bind, Res.pure_eq, Res.ok.injEq, MainStore.Step.go.injEq, Option.some.injEq]
          constructor
          · intro e; exact ⟨r, rfl, h, hv, e.symm⟩
          · rintro ⟨r', rfl, -, -, e⟩; exact e.symm
        · have : validId env.pfx env.idSize r = false := by
            cases hb : validId env.pfx env.idSize r with
            | false => rfl
            | true => exact absurd (validId_iff.1 hb) hv
          rw [if_pos this]
          simp only [Res.ok.injEq, reduceCtorEq, false_iff, Option.some.injEq]
          rintro ⟨r', rfl, -, h2, -⟩
          exact hv h2
      · rw [if_pos (hi.2 h)]
        simp only [Res.ok.injEq, reduceCtorEq, false_iff, Option.some.injEq]
        rintro ⟨r', -, h2, -⟩
        exact h h2

theorem sameText_sym {a b : Bytes} : SameText a b ↔ strcasecmp a b = .eq := strcasecmp_eq.symm

/-- The header is made without an assertion failure, and is as it should be. -/
theorem jobHdr_ok (env : Env) (a : Args) (ref : Option Bytes) : ∃ h, jobHdr env (wtype a) a.mt ref = .ok h ∧ Headed env a ref h := by
  have hs0 : SortedF (headerNew env.idSize).fields := List.Pairwise.nil
  have g0 : ∀ m, headerGet (headerNew env.idSize) m = none := fun m => rfl
  obtain ⟨h1, e1, -⟩ := headerSet_spec (headerNew env.idSize) b!"WARC-Date" env.date hs0 (by decide)
  obtain ⟨-, i1, s1, g1, -⟩ := headerSet_inv hs0 e1
  obtain ⟨h2, e2, -⟩ := headerSet_spec h1 b!"Content-Type" a.mt s1 (by decide)
  obtain ⟨-, i2, s2, g2, -⟩ := headerSet_inv s1 e2
  obtain ⟨h3, e3, -⟩ := headerSet_spec h2 b!"WARC-Type" (wtype a).text s2 (by decide)
  obtain ⟨-, i3, s3, g3, -⟩ := headerSet_inv s2 e3
  have n1 : ∀ m, strcasecmp m b!"WARC-Type" = .eq → strcasecmp m b!"WARC-Date" ≠ .eq ∧ strcasecmp m b!"Content-Type" ≠ .eq := by
    intro m h
    rw [strcasecmp_eq] at h
    rw [ne_eq, ne_eq, strcasecmp_eq, strcasecmp_eq]
    unfold SameText at *
    rw [h]
    decide
  have n2 : ∀ m, strcasecmp m b!"Content-Type" = .eq → strcasecmp m b!"WARC-Date" ≠ .eq := by
    intro m h
    rw [strcasecmp_eq] at h
    rw [ne_eq, strcasecmp_eq]
    unfold SameText at *
    rw [h]
    decide
  have n3 : ∀ m, strcasecmp m b!"WARC-Refers-To" = .eq → strcasecmp m b!"WARC-Date" ≠ .eq ∧ strcasecmp m b!"Content-Type" ≠ .eq ∧ strcasecmp m b!"WARC-Type" ≠ .eq := by
    intro m h
    rw [strcasecmp_eq] at h
    rw [ne_eq, ne_eq, ne_eq, strcasecmp_eq, strcasecmp_eq, strcasecmp_eq]
    unfold SameText at *
    rw [h]
    decide
  have base : ∀ m, headerGet h3 m =
      if SameText m b!"WARC-Date" then some env.date else if SameText m b!"Content-Type" then some a.mt
      else if SameText m b!"WARC-Type" then some (wtype a).text else none := by
    intro m
    rw [g3, g2, g1, g0]
    simp only [sameText_sym]
    by_cases ht : strcasecmp m b!"WARC-Type" = .eq
    · rw [if_pos ht, if_neg (n1 m ht).1, if_neg (n1 m ht).2, if_pos ht]
    · rw [if_neg ht, if_neg ht]
      by_cases hc : strcasecmp m b!"Content-Type" = .eq
      · rw [if_pos hc, if_neg (n2 m hc), if_pos hc]
      · rw [if_neg hc, if_neg hc]
  cases ref with
  | none =>
    refine ⟨h3, ?_, ?_, s3, ?_⟩
    · unfold jobHdr
      rw [e1, Res.ok_bind, e2, Res.ok_bind, e3, Res.ok_bind]
      rfl
    · rw [i3, i2, i1]; rfl
    · intro m
      rw [base]
      simp
  | some r =>
    obtain ⟨h4, e4, -⟩ := headerSet_spec h3 b!"WARC-Refers-To" (b!"<" ++ r ++ b!">") s3 (by decide)
    obtain ⟨-, i4, s4, g4, -⟩ := headerSet_inv s3 e4
    refine ⟨h4, ?_, ?_, s4, ?_⟩
    · unfold jobHdr
      rw [e1, Res.ok_bind, e2, Res.ok_bind, e3, Res.ok_bind]
      exact e4
    · rw [i4, i3, i2, i1]; rfl
    · intro m
      rw [g4, base]
      simp only [sameText_sym]
      by_cases ht : strcasecmp m b!"WARC-Refers-To" = .eq
      · rw [if_pos ht, if_neg (n3 m ht).1, if_neg (n3 m ht).2.1, if_neg (n3 m ht).2.2, if_pos ht]; rfl
      · rw [if_neg ht, if_neg ht]

theorem mimeOk_iff {cfg : List Config.Section} {a : Args} :
    mimeOk cfg (wtype a) a.mt = true ↔ ∃ x, Config.configFind cfg (mimeSection (wtype a)) a.mt = some x := by
  unfold mimeOk
  rw [Option.isSome_iff_exists]
  cases wtype a <;> rfl

theorem refThere_iff {env : Env} {fuel : Nat} {w : World} {ref : Option Bytes} :
    refThere env fuel w ref = .ok true ↔ ∀ r, ref = some r → ∃ gj, getjobNew env.ps env.pfx env.idSize fuel w r = .ok (.job gj) := by
  cases ref with
  | none => simp [refThere]
  | some r =>
    simp only [refThere, Option.some.injEq, forall_eq']
    cases hg : getjobNew env.ps env.pfx env.idSize fuel w r with
    | ok g => cases g <;> simp
    | fail => simp
    | ub => simp

/-- C59: the program prints an ID exactly if the options mean something, the input is not empty, the request is granted and the
object, under a header with the date, the mime type, the type and the reference, is stored; the ID printed is that under which it is stored. -/
theorem C59_store {σ : Type} {env : Env} {D : Deflater σ} {fuel : Nat} {cfg : List Config.Section} {w w' : World} {opts : List Opt}
    {input : Option Input} {uri : Bytes} (he : EnvOk env) :
    mainStore env D fuel cfg w opts input = .ok (w', .printed uri) ↔
      ∃ a i ref h, Means opts a ∧ input = some i ∧ i.pieces ≠ [] ∧ Granted env fuel cfg w a ref ∧ Headed env a ref h ∧
        jobHdr env (wtype a) a.mt ref = .ok h ∧ storeObj env D fuel w h a.i i.pieces = .ok (w', uri) := by
  unfold mainStore
  cases ho : options opts noArgs with
  | none =>
    simp only [Res.ok.injEq, Prod.mk.injEq, reduceCtorEq, and_false, false_iff]
    rintro ⟨a, i, ref, h, hm, -⟩
    rw [(C59_options _ _).2 hm] at ho
    cases ho
  | some a =>
    have hm := (C59_options _ _).1 ho
    simp only
    rw [show a.wt.getD .resource = wtype a from rfl]
    constructor
    · intro h
      rw [Res.bind_eq_ok] at h
      obtain ⟨st, hst, h⟩ := h
      cases st with
      | refuse e => cases h
      | go ref =>
        simp only at h
        cases input with
        | none => cases h
        | some i =>
          simp only at h
          by_cases hp : i.pieces = []
          · rw [if_pos hp] at h; cases h
          · rw [if_neg hp] at h
            unfold storeInput at h
            cases hmi : mimeOk cfg (wtype a) a.mt with
            | false => rw [hmi] at h; cases h
            | true =>
              rw [hmi, if_neg (by simp)] at h
              obtain ⟨hh, ej, hhd⟩ := jobHdr_ok env a ref
              rw [ej, Res.ok_bind, Res.bind_eq_ok] at h
              obtain ⟨b, hb, h⟩ := h
              cases b with
              | false => cases h
              | true =>
                simp only [Bool.true_eq_false, if_false, Res.bind_eq_ok, Res.pure_eq, Res.ok.injEq, Prod.mk.injEq] at h
                obtain ⟨⟨w1, u1⟩, hs, rfl, h⟩ := h
                cases h
                have hc := (checkArgs_iff he).1 hst
                refine ⟨a, i, ref, hh, hm, rfl, hp, ⟨mimeOk_iff.1 hmi, hc.1, ?_⟩, hhd, ej, hs⟩
                intro ht
                obtain ⟨r, h1, h2, h3, h4⟩ := hc.2 ht
                exact ⟨r, h1, h2, h3, h4, refThere_iff.1 hb _ h4⟩
    · rintro ⟨a', i, ref, hh, hm', rfl, hp, hg, hhd, ej, hs⟩
      have : a' = a := by
        have := (C59_options _ _).2 hm'
        rw [ho] at this
        cases this; rfl
      subst this
      rw [(checkArgs_iff he).2 ⟨hg.res, fun ht => by
        obtain ⟨r, h1, h2, h3, h4, -⟩ := hg.md ht
        exact ⟨r, h1, h2, h3, h4⟩⟩, Res.ok_bind]
      simp only
      rw [if_neg hp, storeInput, mimeOk_iff.2 hg.mime, if_neg (by simp), ej, Res.ok_bind, refThere_iff.2 ?_, Res.ok_bind, if_neg (by simp), hs]
      · rfl
      · intro r hr
        cases ht : wtype a' with
        | resource => rw [(hg.res ht).2.2] at hr; cases hr
        | metadata =>
          obtain ⟨r', -, -, -, h4, h5⟩ := hg.md ht
          rw [h4] at hr
          cases hr
          exact h5

/-- C59: a request that is refused changes nothing. -/
theorem C59_refused {σ : Type} {env : Env} {D : Deflater σ} {fuel : Nat} {cfg : List Config.Section} {w w' : World} {opts : List Opt}
    {input : Option Input} {e : Refusal} (h : mainStore env D fuel cfg w opts input = .ok (w', .refused e)) : w' = w := by
  unfold mainStore at h
  split at h
  · cases h; rfl
  · simp only [Res.bind_eq_ok] at h
    obtain ⟨st, -, h⟩ := h
    cases st with
    | refuse e => cases h; rfl
    | go ref =>
      simp only at h
      cases input with
      | none => cases h; rfl
      | some i =>
        simp only at h
        split at h
        · cases h; rfl
        · unfold storeInput at h
          split at h
          · cases h; rfl
          · simp only [Res.bind_eq_ok] at h
            obtain ⟨hh, -, b, -, h⟩ := h
            split at h
            · cases h; rfl
            · rw [Res.bind_eq_ok] at h
              obtain ⟨_, _, h⟩ := h
              cases h

/-! ### Only permitted headers get into the archive -/

theorem lower_clean {a b : Bytes} (h : SameText a b) (hb : CleanText b) : CleanText a := by
  have tbl : ∀ n : Fin 256, (toLower (UInt8.ofNat n) = 13 ↔ UInt8.ofNat n = 13) ∧ (toLower (UInt8.ofNat n) = 0 ↔ UInt8.ofNat n = 0) := by
    set_option maxRecDepth 20000 in decide
  have key : ∀ c : UInt8, (toLower c = 13 ↔ c = 13) ∧ (toLower c = 0 ↔ c = 0) := by
    intro c
    have := tbl ⟨c.toNat, c.toNat_lt⟩
    simpa only [UInt8.ofNat_toNat] using this
  have mem : ∀ (x : UInt8), (∀ c, toLower c = x ↔ c = x) → ∀ l : Bytes, x ∈ l.map toLower ↔ x ∈ l := by
    intro x hx l
    rw [List.mem_map]
    constructor
    · rintro ⟨c, hc, e⟩; rw [← (hx c).1 e]; exact hc
    · intro hl; exact ⟨x, hl, (hx x).2 rfl⟩
  constructor
  · rw [← mem 13 (fun c => (key c).1), h, mem 13 (fun c => (key c).1)]; exact hb.1
  · rw [← mem 0 (fun c => (key c).2), h, mem 0 (fun c => (key c).2)]; exact hb.2

theorem fullRef_spec {env : Env} (he : EnvOk env) {r : Bytes} (hr : WellFormed env r) :
    ∃ pre b, fullRef env r = pre ++ b ∧ SameText pre env.pfx ∧ (∀ c ∈ b, isHex c = true) ∧ b.length = env.idSize := by
  obtain ⟨b, hb⟩ := hr
  obtain ⟨h1, h2, h3⟩ := (C11_valid_id _ _ _ _).1 hb
  unfold fullRef
  rcases h1 with ⟨pre, h1, h4⟩ | ⟨-, h1⟩
  · refine ⟨pre, b, ?_, h4, h2, h3⟩
    rw [if_neg, h1]
    obtain ⟨p, hp⟩ := he.slash
    have : pre.length = env.pfx.length := by simpa using congrArg List.length h4
    rw [h1, List.length_append, this, hp]
    simp
    omega
  · subst h1
    rw [if_pos h3]
    exact ⟨env.pfx, b, rfl, rfl, h2, h3⟩

/-- The configuration lists the mime types one by one, and a header with any of them leaves room in the first page of a record. -/
structure Listed (env : Env) (cfg : List Config.Section) : Prop where
  tokens : Tokens cfg
  types : ∀ t : WType, ∀ s ∈ cfg, SameText s.name (mimeSection t) → ∀ e ∈ s.entries,
    e.name ≠ b!"*" ∧ 702 + 3 * env.pfx.length + 2 * env.idSize + env.date.length + e.name.length ≤ env.ps

theorem listed_mime {env : Env} {cfg : List Config.Section} (hl : Listed env cfg) {t : WType} {mt : Bytes} {x : Option Bytes}
    (h : Config.configFind cfg (mimeSection t) mt = some x) :
    CleanText mt ∧ 702 + 3 * env.pfx.length + 2 * env.idSize + env.date.length + mt.length ≤ env.ps := by
  unfold Config.configFind at h
  split at h
  · cases h
  · rename_i s hs
    unfold Config.section? at hs
    have hm := List.mem_of_find?_eq_some hs
    have hn := List.find?_some hs
    rw [strcasecmp_beq] at hn
    rw [Option.map_eq_some_iff] at h
    obtain ⟨e, hf, -⟩ := h
    have hem := List.mem_of_find?_eq_some hf
    have hen := List.find?_some hf
    obtain ⟨h1, h2⟩ := hl.types t s hm hn e hem
    simp only [Bool.or_eq_true, beq_iff_eq, h1, decide_false, Bool.false_or, false_or, decide_eq_true_eq] at hen
    have hst : SameText mt e.name := (strcasecmp_beq _ _).1 (by rw [beq_iff_eq]; exact hen)
    have hlen : mt.length = e.name.length := by simpa using congrArg List.length hst
    refine ⟨lower_clean hst (clean_of fun c hc => ?_), by omega⟩
    have := (hl.tokens s hm e hem).2 c hc
    refine ⟨?_, this.2.2⟩
    rintro rfl
    exact absurd this.1 (by decide)

/-- The header of a granted request is one that can be stored, and has the type asked for. -/
theorem granted_good {env : Env} (he : EnvOk env) {fuel : Nat} {cfg : List Config.Section} {w : World} {a : Args} {ref : Option Bytes} {h : Hdr}
    (hl : Listed env cfg) (hg : Granted env fuel cfg w a ref) (hh : Headed env a ref h) (ej : jobHdr env (wtype a) a.mt ref = .ok h) :
    GoodJob env h ∧ headerGet h b!"WARC-Type" = some (wtype a).text := by
  obtain ⟨x, hx⟩ := hg.mime
  obtain ⟨cm, lm⟩ := listed_mime hl hx
  have hty : CleanText (wtype a).text ∧ (wtype a).text.length = 8 := by cases wtype a <;> exact ⟨by decide, rfl⟩
  refine ⟨⟨⟨hh.sorted, by rw [hh.id]; simp, ?_, ?_, ?_, ?_, ?_⟩, ?_⟩, ?_⟩
  · rw [hh.get]; rfl
  · rw [hh.get]; rfl
  · rw [hh.get]; rfl
  · rw [hh.get]; rfl
  · rw [hh.get]; rfl
  · have hs0 : SortedF (headerNew env.idSize).fields := List.Pairwise.nil
    have n0 : Neat (headerNew env.idSize) := ⟨hs0, (fun f hf => absurd hf (by simp [headerNew])), (fun f hf => absurd hf (by simp [headerNew]))⟩
    have l0 : (headerSerialize env.pfx (headerNew env.idSize)).length = 32 + env.pfx.length + env.idSize := by
      rw [serialize_length]
      simp [headerNew, flen]
    unfold jobHdr at ej
    rw [Res.bind_eq_ok] at ej
    obtain ⟨h1, e1, ej⟩ := ej
    rw [Res.bind_eq_ok] at ej
    obtain ⟨h2, e2, ej⟩ := ej
    rw [Res.bind_eq_ok] at ej
    obtain ⟨h3, e3, ej⟩ := ej
    have n1 := neat_set n0 e1 (by decide) he.date
    have n2 := neat_set n1 e2 (by decide) cm
    have n3 := neat_set n2 e3 (by decide) hty.1
    have l1 := set_len_le (pfx := env.pfx) n0.1 e1
    have l2 := set_len_le (pfx := env.pfx) n1.1 e2
    have l3 := set_len_le (pfx := env.pfx) n2.1 e3
    unfold headerLen at l1 l2 l3
    rw [hty.2] at l3
    have k1 : (b!"WARC-Date").length = 9 := rfl
    have k2 : (b!"Content-Type").length = 12 := rfl
    have k3 : (b!"WARC-Type").length = 9 := rfl
    have k4 : (b!"WARC-Refers-To").length = 14 := rfl
    rw [k1] at l1
    rw [k2] at l2
    rw [k3] at l3
    cases ref with
    | none =>
      cases ej
      refine ⟨n3, ?_⟩
      unfold Short
      omega
    | some r =>
      simp only at ej
      have hr : CleanText r ∧ r.length = env.pfx.length + env.idSize := by
        cases ht : wtype a with
        | resource => exact absurd (hg.res ht).2.2 (by simp)
        | metadata =>
          obtain ⟨r', -, -, h3, h4, -⟩ := hg.md ht
          cases h4
          obtain ⟨pre, b, h5, h6, h7, h8⟩ := fullRef_spec he h3
          rw [h5]
          refine ⟨clean_append (lower_clean h6 he.pfx.2) (clean_hex h7), ?_⟩
          have : pre.length = env.pfx.length := by simpa using congrArg List.length h6
          rw [List.length_append, this, h8]
      have n4 := neat_set n3 ej (by decide) (clean_append (clean_append (by decide) hr.1) (by decide))
      have l4 := set_len_le (pfx := env.pfx) n3.1 ej
      unfold headerLen at l4
      rw [k4, List.length_append, List.length_append, hr.2] at l4
      refine ⟨n4, ?_⟩
      unfold Short
      simp only [List.length_cons, List.length_nil] at l4
      omega
  · rw [hh.get]; rfl

/-- A history of the archive: runs of `store` with any options and any input, successful or not, and of `mksilo`, housekeeping, and changes that concern
neither the contents of silos nor the index. -/
inductive Session {σ : Type} (env : Env) (D : Deflater σ) (cfg : List Config.Section) : World → World → Prop where
  | refl (w : World) : Session env D cfg w w
  | run {w w1 w2 : World} {fuel : Nat} {opts : List Opt} {input : Option Input} {out : Out} : Session env D cfg w w1 →
      (∀ i, input = some i → (∀ c ∈ i.pieces, c ≠ []) ∧ i.pieces.flatten.length + env.max < 2 ^ 63) →
      mainStore env D fuel cfg w1 opts input = .ok (w2, out) → Session env D cfg w w2
  | housekeep {w w1 : World} {n : Nat} {d : Dir} : Session env D cfg w w1 → n % 32 = 0 → 0 < n → idxResort n w1.dir = .ok d →
      Session env D cfg w { w1 with dir := d }
  | mksilo {w w1 w2 : World} {args : List Bytes} {out : Mksilo.Out} : Session env D cfg w w1 → Mksilo.mainMksilo env w1 args = .ok (w2, out) →
      Session env D cfg w w2
  | other {w w1 w2 : World} : Session env D cfg w w1 → w2.dir = w1.dir → (∀ n, (w2.silos n).map (·.data) = (w1.silos n).map (·.data)) →
      Session env D cfg w w2

theorem mainMksilo_steps {env : Env} {w w' : World} {args : List Bytes} {out : Mksilo.Out} (e : Mksilo.mainMksilo env w args = .ok (w', out)) :
    w' = w ∨ ∃ n, n < 2 ^ 32 ∧ Mksilo.mksilo env w n = .ok (w', out) := by
  cases args with
  | nil => cases e; exact .inl rfl
  | cons t ts => exact .inr ⟨_, Nat.mod_lt _ (by decide), e⟩

/-- C59: whatever `store` is asked to do, the history of the archive is one of permitted stores: resources and metadata with well-formed
headers, an ID given for metadata only. -/
theorem C59_history {σ : Type} {env : Env} {D : Deflater σ} {cfg : List Config.Section} (he : EnvOk env) (hl : Listed env cfg) {w w' : World}
    (hs : Session env D cfg w w') : Stores env D true w w' := by
  induction hs with
  | refl => exact .refl _
  | run _ hi e ih =>
    rename_i w1 w2 fuel opts input out _
    cases out with
    | refused r => rw [C59_refused e]; exact ih
    | printed uri =>
      obtain ⟨a, i, ref, h, -, rfl, hp, hg, hh, ej, e⟩ := (C59_store he).1 e
      obtain ⟨hj, ht⟩ := granted_good he hl hg hh ej
      refine .store ih hj ?_ ⟨hp, hi i rfl⟩ ?_ e
      · rw [ht]; cases wtype a
        · exact Or.inl rfl
        · exact Or.inr rfl
      · intro hn
        refine ⟨rfl, ?_⟩
        rw [ht]
        cases hw : wtype a with
        | resource => exact absurd (hg.res hw).2.1 hn
        | metadata => rfl
  | housekeep _ h1 h2 h3 ih => exact .housekeep ih h1 h2 h3
  | mksilo _ e ih =>
    rcases mainMksilo_steps e with rfl | ⟨n, hn, e⟩
    · exact ih
    · exact .mksilo ih hn e
  | other _ h1 h2 ih => exact .other ih h1 h2

end Verif.Props
