/-
Property C92: what the option of the audit changes.
-/
import Verif.Props.Audit
import Verif.Model.AuditArgs
import Verif.Props.AuditExample

namespace Verif.Props
open Verif Header Ident Audit Segjob Spec Wsilo
open _root_.Verif.Commit (Silo)

/-- What the option is there for: the message about the ID of a metadata record is left out. -/
def withoutIds (x : Ap × List Msg × Option Int) : Ap × List Msg × Option Int :=
  (x.1, if headerGet x.1.hdr b!"WARC-Type" = some b!"metadata" then x.2.1.filter (fun m => !decide (m = .ident)) else x.2.1, x.2.2)

/-- The messages other than the one about the ID. -/
theorem checkDigest_noid {h : Hdr} {name dig : Bytes} {m : List Msg} (hm : checkDigest h name dig = .ok m) : Msg.ident ∉ m := by
  unfold checkDigest at hm
  split at hm
  · cases hm; simp
  · simp only [Res.bind_eq_ok] at hm
    obtain ⟨-, -, hm⟩ := hm
    split at hm
    · cases hm; simp
    · split at hm <;> cases hm <;> simp

theorem checkHeader_noid (h : Hdr) (name e : Bytes) : Msg.ident ∉ checkHeader h name e := by
  unfold checkHeader
  split
  · simp
  · split <;> simp

theorem segNumber_noid (is : Bytes) : Msg.ident ∉ (segNumber is).2 := by
  unfold segNumber
  split
  · simp
  · simp only; split <;> simp

theorem filter_noid {m : List Msg} (h : Msg.ident ∉ m) : m.filter (fun x => !decide (x = .ident)) = m := by
  rw [List.filter_eq_self]
  intro a ha
  simp only [Bool.not_eq_true', decide_eq_false_iff_not]
  rintro rfl
  exact h ha

/-- The message about the ID, with and without the option. -/
theorem checkIdent_opt {sha : Bytes → Bytes} {idSize : Nat} {h : Hdr} {dig : Bytes} {m : List Msg} (hm : checkIdent sha idSize false h dig = .ok m) :
    checkIdent sha idSize true h dig = .ok (if headerGet h b!"WARC-Type" = some b!"metadata" then m.filter (fun x => !decide (x = .ident)) else m) := by
  unfold checkIdent at hm ⊢
  cases hg : headerGet h b!"WARC-Type" with
  | none => rw [hg] at hm; cases hm
  | some typ =>
    rw [hg] at hm
    simp only [Option.some.injEq, and_true, Bool.false_eq_true, and_false, if_false] at hm ⊢
    by_cases ht : typ = b!"metadata"
    · rw [if_pos ht, if_pos ht]
      simp only [Res.bind_eq_ok] at hm
      obtain ⟨id, -, hm⟩ := hm
      split at hm <;> cases hm <;> simp
    · rw [if_neg ht, if_neg ht]
      exact hm

/-- C92 for one record. -/
theorem C92_record {sha : Bytes → Bytes} {idSize : Nat} {ap : Ap} {m : List Msg} {s : Option Int} (h : auditOne sha idSize false ap = .ok (m, s)) :
    auditOne sha idSize true ap =
      .ok (if headerGet ap.hdr b!"WARC-Type" = some b!"metadata" then m.filter (fun x => !decide (x = .ident)) else m, s) := by
  unfold auditOne at h ⊢
  simp only [Res.bind_eq_ok] at h
  obtain ⟨m1, h1, h2⟩ := h
  have k1 := filter_noid (checkDigest_noid h1)
  have k2 := filter_noid (checkHeader_noid ap.hdr b!"Content-Length" (dec ap.content.length))
  have k3 : (if ap.bodylen ≠ (ap.o2 : Int) - ap.o1 then [Msg.gzLength] else []).filter (fun x => !decide (x = .ident)) =
      if ap.bodylen ≠ (ap.o2 : Int) - ap.o1 then [Msg.gzLength] else [] := by
    split <;> rfl
  simp only [h1, Res.ok_bind]
  cases hg : headerGet ap.hdr b!"WARC-Segment-Number" with
  | none =>
    rw [hg] at h2
    simp only [Res.bind_eq_ok, Res.pure_eq, Res.ok.injEq, Prod.mk.injEq] at h2
    obtain ⟨m5, h5, rfl, rfl⟩ := h2
    simp only [checkIdent_opt h5, Res.ok_bind, Res.pure_eq]
    by_cases hmd : headerGet ap.hdr b!"WARC-Type" = some b!"metadata"
    · simp only [if_pos hmd]
      rw [List.filter_append, List.filter_append, List.filter_append, k1, k2, k3]
    · simp only [if_neg hmd]
  | some is =>
    rw [hg] at h2
    simp only [Res.bind_eq_ok, Res.pure_eq, Res.ok.injEq, Prod.mk.injEq] at h2
    obtain ⟨m5, h5, rfl, rfl⟩ := h2
    have k4 := filter_noid (segNumber_noid is)
    by_cases his : is = b!"1"
    · rw [if_pos his] at h5
      cases h5
      simp only [if_pos his, Res.ok_bind, Res.pure_eq, List.append_nil]
      by_cases hmd : headerGet ap.hdr b!"WARC-Type" = some b!"metadata"
      · simp only [if_pos hmd]
        rw [List.filter_append, List.filter_append, List.filter_append, k1, k2, k3, k4]
      · simp only [if_neg hmd]
    · rw [if_neg his] at h5
      simp only [if_neg his, checkIdent_opt h5, Res.ok_bind, Res.pure_eq]
      by_cases hmd : headerGet ap.hdr b!"WARC-Type" = some b!"metadata"
      · simp only [if_pos hmd]
        rw [List.filter_append, List.filter_append, List.filter_append, List.filter_append, k1, k2, k3, k4]
      · simp only [if_neg hmd]

theorem auditLoop_opt {ps : Nat} {pfx : Bytes} {cut : Bytes → List Bytes} {sha : Bytes → Bytes} {idSize silo : Nat} (fuel : Nat) :
    ∀ {rs : Rsilo.Rs} {l : List (Ap × List Msg × Option Int)}, auditLoop ps pfx cut sha idSize false silo fuel rs = .ok l →
      auditLoop ps pfx cut sha idSize true silo fuel rs = .ok (l.map withoutIds) := by
  induction fuel with
  | zero => intro rs l h; cases h
  | succ fuel ih =>
    intro rs l h
    rw [auditLoop] at h ⊢
    simp only [Res.bind_eq_ok] at h
    obtain ⟨r, h1, h⟩ := h
    rw [h1]
    simp only [Res.ok_bind]
    cases hr : r.1 with
    | none =>
      rw [hr] at h
      cases h
      rfl
    | some hd =>
      rw [hr] at h
      simp only [Res.bind_eq_ok, Res.pure_eq, Res.ok.injEq] at h
      obtain ⟨bl, h2, b, h3, rs2, h4, q, h5, l', h6, rfl⟩ := h
      obtain ⟨m, s⟩ := q
      simp only [h2, h3, h4, C92_record h5, ih h6, Res.ok_bind, Res.pure_eq, List.map_cons, withoutIds]

theorem auditSilos_opt {ps : Nat} {pfx : Bytes} {cut : Bytes → List Bytes} {sha : Bytes → Bytes} {idSize lf : Nat} {silos : Nat → Option Silo} (fuel : Nat) :
    ∀ {i : Nat} {l : List (Ap × List Msg × Option Int)}, auditSilos ps pfx cut sha idSize false silos lf fuel i = .ok l →
      auditSilos ps pfx cut sha idSize true silos lf fuel i = .ok (l.map withoutIds) := by
  induction fuel with
  | zero => intro i l h; cases h
  | succ fuel ih =>
    intro i l h
    rw [auditSilos] at h ⊢
    cases hs : silos i with
    | none => rw [hs] at h; cases h; rfl
    | some f =>
      rw [hs] at h
      simp only [Res.bind_eq_ok, Res.pure_eq, Res.ok.injEq] at h
      obtain ⟨a, h1, r, h2, rfl⟩ := h
      unfold auditSilo at h1 ⊢
      simp only [auditLoop_opt _ h1, ih h2, Res.ok_bind, Res.pure_eq, List.map_append]

theorem pendingOf_opt (l : List (Ap × List Msg × Option Int)) : pendingOf (l.map withoutIds) = pendingOf l := by
  unfold pendingOf
  induction l with
  | nil => rfl
  | cons x l ih =>
    rw [List.map_cons, List.filter_cons, List.filter_cons]
    by_cases hx : x.2.2.isSome = true
    · rw [if_pos hx, if_pos (by exact hx), List.map_cons, List.map_cons, ih]; rfl
    · rw [if_neg hx, if_neg (by exact hx), ih]

/-- C92: with the option the audit reads the same records and says the same about them, except for the IDs of metadata records; about segmented objects
it says exactly what it says without. -/
theorem C92_option {ps : Nat} {pfx : Bytes} {cut : Bytes → List Bytes} {sha : Bytes → Bytes} {idSize : Nat} {silos : Nat → Option Silo} {fuel : Nat}
    {r : Option (List (Ap × List Msg × Option Int) × List Pend × List Ap)} (h : mainAudit ps pfx cut sha idSize false silos fuel = .ok r) :
    mainAudit ps pfx cut sha idSize true silos fuel = .ok (r.map fun x => (x.1.map withoutIds, x.2)) := by
  unfold mainAudit at h ⊢
  simp only [Res.bind_eq_ok, Res.pure_eq, Res.ok.injEq] at h
  obtain ⟨l, h1, p, h2, rfl⟩ := h
  simp only [auditSilos_opt _ h1, pendingOf_opt, h2, Res.ok_bind, Res.pure_eq, Option.map_map]
  rfl

/-! ### Files named on the command line -/

/-- C92: the records that are audited are those of the arguments in front of the first one that cannot be opened, in this order, each file as if it were
audited alone. -/
theorem C92_files {ps : Nat} {pfx : Bytes} {cut : Bytes → List Bytes} {sha : Bytes → Bytes} {idSize lf : Nat} {ign : Bool} {fs : Bytes → Option Bytes} (args : List Bytes) :
    ∀ {i : Nat} {l : List (Ap × List Msg × Option Int)}, auditFiles ps pfx cut sha idSize ign fs lf args i = .ok l →
      ∃ parts : List (List (Ap × List Msg × Option Int)), l = parts.flatten ∧ parts.length = (args.takeWhile fun a => (fs a).isSome).length ∧
        ∀ k p, parts[k]? = some p → ∃ a f, args[k]? = some a ∧ fs a = some f ∧ auditSilo ps pfx cut sha idSize ign (i + k) lf f = .ok p := by
  induction args with
  | nil => intro i l h; cases h; exact ⟨[], rfl, rfl, fun k p hp => by cases hp⟩
  | cons a args ih =>
    intro i l h
    rw [auditFiles] at h
    cases hf : fs a with
    | none =>
      rw [hf] at h
      cases h
      exact ⟨[], rfl, by simp [hf], fun k p hp => by cases hp⟩
    | some f =>
      rw [hf] at h
      simp only [Res.bind_eq_ok, Res.pure_eq, Res.ok.injEq] at h
      obtain ⟨x, h1, r, h2, rfl⟩ := h
      obtain ⟨parts, rfl, q2, q3⟩ := ih h2
      refine ⟨x :: parts, rfl, by simp [hf, q2], fun k p hp => ?_⟩
      cases k with
      | zero => cases hp; exact ⟨a, f, rfl, hf, h1⟩
      | succ k =>
        obtain ⟨b, g, e1, e2, e3⟩ := q3 k p hp
        exact ⟨b, g, e1, e2, by rw [← e3]; congr 1; omega⟩

theorem auditSilos_named {ps : Nat} {pfx : Bytes} {cut : Bytes → List Bytes} {sha : Bytes → Bytes} {idSize lf : Nat} {ign : Bool} {fs : Bytes → Option Bytes} {silos : Nat → Option Silo} {N : Nat}
    (args : List Bytes) : ∀ {i fuel : Nat}, (∀ k, k < args.length → ∃ f, silos (i + k) = some f ∧ args[k]?.bind fs = some f.data) → i + args.length = N → silos N = none → args.length < fuel →
      auditSilos ps pfx cut sha idSize ign silos lf fuel i = auditFiles ps pfx cut sha idSize ign fs lf args i := by
  induction args with
  | nil =>
    intro i fuel _ hN hz hf
    obtain ⟨fuel, rfl⟩ : ∃ m, fuel = m + 1 := ⟨fuel - 1, by simp at hf; omega⟩
    rw [auditSilos, auditFiles]
    rw [List.length_nil, Nat.add_zero] at hN
    rw [hN, hz]
  | cons a args ih =>
    intro i fuel hs hN hz hf
    obtain ⟨fuel, rfl⟩ : ∃ m, fuel = m + 1 := ⟨fuel - 1, by simp at hf; omega⟩
    obtain ⟨f, e1, e2⟩ := hs 0 (by simp)
    rw [auditSilos, auditFiles]
    rw [Nat.add_zero] at e1
    rw [e1, show fs a = some f.data from e2]
    simp only
    rw [ih (i := i + 1) (fuel := fuel) (fun k hk => ?_) (by rw [List.length_cons] at hN; omega) hz (by rw [List.length_cons] at hf; omega)]
    obtain ⟨g, g1, g2⟩ := hs (k + 1) (by rw [List.length_cons]; omega)
    exact ⟨g, by rw [← g1]; congr 1; omega, g2⟩

theorem addSegment_data {ps : Nat} {pfx : Bytes} {cut : Bytes → List Bytes} {s s' : Nat → Option Silo} (h : ∀ n, (s n).map (·.data) = (s' n).map (·.data)) :
    addSegment ps pfx cut s = addSegment ps pfx cut s' := by
  funext acc ap
  unfold addSegment
  have := h ap.silo
  cases h1 : s ap.silo <;> cases h2 : s' ap.silo <;> rw [h1, h2] at this <;> simp_all

theorem pass_data {ps : Nat} {pfx : Bytes} {cut : Bytes → List Bytes} {s s' : Nat → Option Silo} (h : ∀ n, (s n).map (·.data) = (s' n).map (·.data)) {oid : Bytes} (todo : List Ap) :
    ∀ {kept : List Ap} {ap : Ap} {acc : Bytes} {found : Bool}, pass ps pfx cut s oid todo kept ap acc found = pass ps pfx cut s' oid todo kept ap acc found := by
  induction todo with
  | nil => intros; rfl
  | cons a todo ih => intros; simp only [pass, addSegment_data h, ih]

theorem passes_data {ps : Nat} {pfx : Bytes} {cut : Bytes → List Bytes} {sha : Bytes → Bytes} {idSize : Nat} {s s' : Nat → Option Silo}
    (h : ∀ n, (s n).map (·.data) = (s' n).map (·.data)) {ap0 : Ap} (fuel : Nat) : ∀ {l : List Ap} {ap : Ap} {acc : Bytes},
      passes ps pfx cut sha idSize s ap0 fuel l ap acc = passes ps pfx cut sha idSize s' ap0 fuel l ap acc := by
  induction fuel with
  | zero => intros; rfl
  | succ fuel ih => intros; simp only [passes, pass_data h, ih]

theorem allPending_data {ps : Nat} {pfx : Bytes} {cut : Bytes → List Bytes} {sha : Bytes → Bytes} {idSize : Nat} {s s' : Nat → Option Silo}
    (h : ∀ n, (s n).map (·.data) = (s' n).map (·.data)) (fuel : Nat) : ∀ {l : List Ap}, allPending ps pfx cut sha idSize s fuel l = allPending ps pfx cut sha idSize s' fuel l := by
  induction fuel with
  | zero => intros; rfl
  | succ fuel ih =>
    intro l
    have : onePending ps pfx cut sha idSize s (fuel + 1) l = onePending ps pfx cut sha idSize s' (fuel + 1) l := by
      unfold onePending
      simp only [addSegment_data h, passes_data h]
    simp only [allPending, this, ih]

/-- C92: to name all silos of the archive in order, and nothing else, is the same as to name none. -/
theorem C92_all_named {ps : Nat} {pfx : Bytes} {cut : Bytes → List Bytes} {sha : Bytes → Bytes} {idSize : Nat} {ign : Bool} {fs : Bytes → Option Bytes} {silos : Nat → Option Silo}
    {args : List Bytes} {fuel : Nat} (hs : ∀ k, (silos k).map (·.data) = args[k]?.bind fs) (ha : ∀ a ∈ args, fs a ≠ none) (hf : args.length < fuel) :
    auditCmd ps pfx cut sha idSize ign silos fs fuel args = auditCmd ps pfx cut sha idSize ign silos fs fuel [] := by
  unfold auditCmd
  rw [if_pos rfl]
  by_cases h0 : args = []
  · rw [if_pos h0]
  · rw [if_neg h0]
    unfold mainAudit
    rw [auditSilos_named (fs := fs) args (N := args.length) (fun k hk => ?_) (Nat.zero_add _) ?_ hf]
    · have : ∀ l, allPending ps pfx cut sha idSize (namedSilos fs args) fuel l = allPending ps pfx cut sha idSize silos fuel l := fun l =>
        allPending_data (fun n => by
          rw [hs n]
          unfold namedSilos
          cases args[n]?.bind fs <;> rfl) fuel
      simp only [this]
    · have := hs args.length
      rw [List.getElem?_eq_none (Nat.le_refl _)] at this
      cases hk' : silos args.length with
      | none => rfl
      | some g => rw [hk'] at this; cases this
    · have := hs k
      rw [List.getElem?_eq_getElem hk] at this ⊢
      rw [Nat.zero_add]
      have hne := ha _ (List.getElem_mem hk)
      cases hfk : fs args[k] with
      | none => exact absurd hfk hne
      | some f =>
        rw [Option.bind_some, hfk] at this
        cases hk' : silos k with
        | none => rw [hk'] at this; cases this
        | some g => rw [hk'] at this; cases this; exact ⟨g, rfl, by rw [Option.bind_some, hfk]⟩

/-- C92 is false if a file cannot be opened: those behind it are not audited, nothing is said about it, and the status is 0. -/
theorem C92_counterexample_missing {ps : Nat} {pfx : Bytes} {cut : Bytes → List Bytes} {sha : Bytes → Bytes} {idSize : Nat} {ign : Bool} {fs : Bytes → Option Bytes} {silos : Nat → Option Silo}
    {a : Bytes} (ha : fs a = none) (args : List Bytes) (fuel : Nat) : auditCmd ps pfx cut sha idSize ign silos fs (fuel + 1) (a :: args) = .ok (some ([], [], [])) := by
  unfold auditCmd
  rw [if_neg (by simp), auditFiles, ha]
  rfl

/-- Store objects, and audit the named ones of the files `0`, `1`, … that are the silos. -/
def storeNamed (ign : Bool) (objs : List (Hdr × Option Bytes × List Bytes)) (args : List Bytes) : Res (Option (Nat × List Msg × List (List Msg) × Nat)) := do
  let env := Example.env 1120
  let w ← objs.foldlM (fun w o => do let r ← storeObj env Example.stored 10 w o.1 o.2.1 o.2.2; return r.1) emptyWorld
  let fs : Bytes → Option Bytes := fun n => if n = b!"0" then (w.silos 0).map (·.data) else if n = b!"1" then (w.silos 1).map (·.data) else none
  let r ← auditCmd env.ps env.pfx (fun b => [b]) env.sha env.idSize ign w.silos fs 3000 args
  return summary r

set_option maxRecDepth 1000000 in
/-- A metadata object with a given ID: two records, by the number of the silo or by its name. -/
example : storeNamed false [(metaHdr, some (List.replicate 24 97), [b!"hello"])] [] = .ok (some (2, [.ident], [], 0)) ∧
    storeNamed false [(metaHdr, some (List.replicate 24 97), [b!"hello"])] [b!"0"] = .ok (some (2, [.ident], [], 0)) ∧
    storeNamed true [(metaHdr, some (List.replicate 24 97), [b!"hello"])] [b!"0", b!"0"] = .ok (some (4, [], [], 0)) ∧
    storeNamed false [(metaHdr, some (List.replicate 24 97), [b!"hello"])] [b!"7", b!"0"] = .ok (some (0, [], [], 0)) :=
  ⟨by decide +kernel, by decide +kernel, by decide +kernel, by decide +kernel⟩

end Verif.Props
