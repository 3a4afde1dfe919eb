/-
A store job that nobody disturbs, as a run of the processes in Model/Commit.lean.
-/
import Verif.Proofs.Crash
import Verif.Props.Commit

namespace Verif.Props
open Verif Header Gzip Ident Index Wsilo Segjob Getjob Spec Cache
open _root_.Verif.Commit (upd Silo Act Pc St setPc)

/-- An action of one of the processes `lo` to `hi - 1`: nobody is killed, and nothing is done by hand. -/
def ActBy (lo hi : Nat) : Act → Prop
  | .go p | .create p _ | .append p _ | .giveUp p | .drop p => lo ≤ p ∧ p < hi
  | .crash _ | .rmHold _ | .protect _ => False

/-- These processes alone lead from one state to the other. -/
def Solo (max : Nat) (jobs : Nat → Commit.Job) (lo hi : Nat) (s s' : St) : Prop :=
  ∃ as, (∀ a ∈ as, ActBy lo hi a) ∧ Commit.run max jobs s as = some s'

theorem commit_run_append (max : Nat) (jobs : Nat → Commit.Job) (as bs : List Act) : ∀ (s : St),
    Commit.run max jobs s (as ++ bs) = (Commit.run max jobs s as).bind fun s' => Commit.run max jobs s' bs := by
  induction as with
  | nil => intro s; rfl
  | cons a as ih =>
    intro s
    simp only [List.cons_append, Commit.run]
    cases Commit.step max jobs s a with
    | none => rfl
    | some s1 => simp [ih]

theorem Solo.refl {max : Nat} {jobs : Nat → Commit.Job} {lo hi : Nat} (s : St) : Solo max jobs lo hi s s := ⟨[], by simp, rfl⟩

theorem Solo.trans {max : Nat} {jobs : Nat → Commit.Job} {lo hi : Nat} {s t u : St} (h1 : Solo max jobs lo hi s t) (h2 : Solo max jobs lo hi t u) :
    Solo max jobs lo hi s u := by
  obtain ⟨as, a1, a2⟩ := h1
  obtain ⟨bs, b1, b2⟩ := h2
  refine ⟨as ++ bs, ?_, by rw [commit_run_append, a2]; exact b2⟩
  intro a ha
  rcases List.mem_append.1 ha with h | h
  · exact a1 a h
  · exact b1 a h

theorem Solo.step {max : Nat} {jobs : Nat → Commit.Job} {lo hi : Nat} {s s' : St} {a : Act} (ha : ActBy lo hi a) (h : Commit.step max jobs s a = some s') :
    Solo max jobs lo hi s s' := ⟨[a], by simpa using ha, by simp [Commit.run, h]⟩

theorem Solo.mono {max : Nat} {jobs : Nat → Commit.Job} {lo hi lo' hi' : Nat} {s s' : St} (h : Solo max jobs lo hi s s') (h1 : lo' ≤ lo) (h2 : hi ≤ hi') :
    Solo max jobs lo' hi' s s' := by
  obtain ⟨as, a1, a2⟩ := h
  refine ⟨as, fun a ha => ?_, a2⟩
  have := a1 a ha
  cases a <;> simp only [ActBy] at this ⊢ <;> omega

theorem solo_go {max : Nat} {jobs : Nat → Commit.Job} {p : Nat} {s s' : St} {pc : Pc} (hp : s.procs[p]? = some pc)
    (h : Commit.stepGo max (jobs p) s p pc = some s') : Solo max jobs p (p + 1) s s' :=
  .step (a := .go p) ⟨Nat.le_refl _, Nat.lt_succ_self _⟩ (by simp only [Commit.step, hp, Option.bind_some]; exact h)

theorem set_get {P : List Pc} {p : Nat} {pc x : Pc} (h : P[p]? = some pc) : (P.set p x)[p]? = some x := by
  have := (List.getElem?_eq_some_iff.1 h).1
  simp [this]

theorem set_same {P : List Pc} {p : Nat} {pc : Pc} (h : P[p]? = some pc) : P.set p pc = P := by
  obtain ⟨h1, rfl⟩ := List.getElem?_eq_some_iff.1 h
  exact List.set_getElem_self h1

theorem upd_back (f : Nat → Bool) (n : Nat) (h : f n = false) : upd (upd f n true) n false = f := by
  funext m
  unfold upd
  split
  · rename_i e; rw [e, h]
  · rfl

/-! ### Creating the hold file -/

theorem solo_create {max : Nat} {jobs : Nat → Commit.Job} {p : Nat} {S : Nat → Option Silo} {H : Nat → Bool} {I : List Commit.Entry} {P : List Pc}
    (hp : P[p]? = some .idle) (fuel : Nat) : ∀ {n m : Nat}, wsiloNext (fun n => (S n).isSome) H fuel n = some m →
    Solo max jobs p (p + 1) ⟨S, H, I, P⟩ ⟨S, upd H m true, I, P.set p (.ready m)⟩ := by
  induction fuel with
  | zero => intro n m h; cases h
  | succ fuel ih =>
    intro n m h
    rw [wsiloNext] at h
    have hby : ActBy p (p + 1) (.create p n) := ⟨Nat.le_refl _, Nat.lt_succ_self _⟩
    by_cases hs : (S n).isSome = true
    · rw [if_pos (.inl hs)] at h
      refine .trans (.step hby ?_) (ih h)
      simp only [Commit.step, hp, Option.bind_some, Commit.stepCreate, hs, if_true, setPc, set_same hp]
    · have hs : (S n).isSome = false := by simpa using hs
      have h1 : Solo max jobs p (p + 1) ⟨S, H, I, P⟩ ⟨S, H, I, P.set p (.probed n)⟩ := .step hby (by
        simp only [Commit.step, hp, Option.bind_some, Commit.stepCreate, hs, Bool.false_eq_true, if_false, setPc])
      by_cases hh : H n = true
      · rw [if_pos (.inr hh)] at h
        refine .trans (h1.trans (solo_go (set_get hp) (s' := ⟨S, H, I, P⟩) ?_)) (ih h)
        simp only [Commit.stepGo, hh, if_true, setPc, List.set_set, set_same hp]
      · rw [if_neg (by simp [hs, hh])] at h
        cases h
        have hh : H n = false := by simpa using hh
        refine h1.trans (.trans (t := ⟨S, H, I, P.set p (.opening n)⟩) (solo_go (set_get hp) ?_) (solo_go (set_get hp) ?_))
        · simp only [Commit.stepGo, hh, Bool.false_eq_true, if_false, setPc, List.set_set]
        · simp only [Commit.stepGo, hh, Bool.false_eq_true, if_false, setPc, List.set_set]

/-! ### Committing -/

/-- What a silo that is ready to be committed is to the processes of Model/Commit.lean. -/
def soloJob (env : Env) (sl : Sl) (segd : Bool) : Commit.Job where
  info _ := sl.hold.take sl.hdStart
  hdr := match finalHold env sl with
    | .ok f => (f.drop sl.hdStart).take sl.hdLen
    | _ => []
  hdrz := env.pack9 (headerSerialize env.pfx sl.hd)
  body := sl.tail
  segd := segd

/-- The index entries of the processes, and the inserts they stand for. -/
def SameEntries (es : List Commit.Entry) (is : List Ins) : Prop := es.map (fun e => (e.silo, e.off)) = is.map fun i => (i.silo, i.off)

theorem SameEntries.append {es fs : List Commit.Entry} {is js : List Ins} (h1 : SameEntries es is) (h2 : SameEntries fs js) : SameEntries (es ++ fs) (is ++ js) := by
  unfold SameEntries at *
  rw [List.map_append, List.map_append, h1, h2]

theorem insertAll_append (is js : List Ins) : ∀ {d d1 d2 : Dir}, insertAll d is = .ok d1 → insertAll d1 js = .ok d2 → insertAll d (is ++ js) = .ok d2 := by
  induction is with
  | nil => intro d d1 d2 h1 h2; cases h1; exact h2
  | cons i is ih =>
    intro d d1 d2 h1 h2
    rw [insertAll] at h1
    simp only [Res.bind_eq_ok] at h1
    obtain ⟨d3, h3, h4⟩ := h1
    rw [List.cons_append, insertAll, h3]
    exact ih h4 h2

theorem putCache_keeps (w : World) (c : Cache) : (putCache w c).silos = w.silos ∧ (putCache w c).holds = w.holds ∧ (putCache w c).dir = w.dir := by
  unfold putCache
  split <;> exact ⟨rfl, rfl, rfl⟩

/-- One call of `silo_attempt_append`. -/
theorem solo_attempt {env : Env} {w w1 : World} {sl : Sl} {sn : Nat} {id : Bytes} {r : Int}
    (h : attemptAppend env w sl sn (env.pack9 (headerSerialize env.pfx sl.hd)) id = .ok (w1, r)) (hsn : sn < sl.no)
    {jobs : Nat → Commit.Job} {p : Nat} (hj : jobs p = soloJob env sl false) {I : List Commit.Entry} {P : List Pc} (hp : P[p]? = some (.ready sl.no)) :
    (r = 0 ∧ w1.silos = w.silos ∧ w1.holds = w.holds ∧ w1.dir = w.dir ∧ Solo env.max jobs p (p + 1) ⟨w.silos, w.holds, I, P⟩ ⟨w.silos, w.holds, I, P⟩) ∨
    (r = -1 ∧ w1.silos = w.silos ∧ w1.holds = w.holds ∧ w1.dir = w.dir ∧
      Solo env.max jobs p (p + 1) ⟨w.silos, w.holds, I, P⟩ ⟨w.silos, w.holds, I, P.set p (.final sl.no)⟩) ∨
    (r = 1 ∧ w1.holds = w.holds ∧ ∃ off, idxInsert w.dir id sl.idx sn off none = .ok w1.dir ∧
      Solo env.max jobs p (p + 1) ⟨w.silos, w.holds, I, P⟩ ⟨w1.silos, w.holds, I ++ [⟨p, .app, sn, off⟩], P.set p (.del sl.no)⟩) := by
  have hby : ActBy p (p + 1) (.append p sn) := ⟨Nat.le_refl _, Nat.lt_succ_self _⟩
  have hstep : Commit.step env.max jobs ⟨w.silos, w.holds, I, P⟩ (.append p sn) =
      some (Commit.stepTry env.max (jobs p) ⟨w.silos, w.holds, I, P⟩ p sl.no sn) := by
    simp only [Commit.step, hp, Option.bind_some, Commit.stepAppend]
    rw [if_pos ⟨by rw [hj]; rfl, hsn⟩]
  have happ : (jobs p).appended = env.pack9 (headerSerialize env.pfx sl.hd) ++ sl.tail := by rw [hj]; rfl
  unfold Commit.stepTry at hstep
  unfold attemptAppend at h
  cases hf : w.silos sn with
  | none =>
    rw [hf] at h
    simp only [hf] at hstep
    cases h
    exact .inl ⟨rfl, rfl, rfl, rfl, .step hby (by rw [hstep]; simp only [setPc, set_same hp])⟩
  | some f =>
    rw [hf] at h
    simp only [hf] at hstep
    simp only at h
    obtain ⟨a1, a2, a3⟩ := putCache_keeps w (bumpNon sn w.cache)
    generalize putCache w (bumpNon sn w.cache) = wa at h a1 a2 a3
    by_cases hw : f.writable = false
    · rw [if_pos hw] at h hstep
      cases h
      exact .inr (.inl ⟨rfl, a1, a2, a3, .step hby hstep⟩)
    · rw [if_neg hw] at h hstep
      obtain ⟨b1, b2, b3⟩ := putCache_keeps wa (bumpSpace env.max f.data.length sn wa.cache)
      generalize putCache wa (bumpSpace env.max f.data.length sn wa.cache) = wb at h b1 b2 b3
      rw [a1] at b1
      rw [a2] at b2
      rw [a3] at b3
      rw [← List.length_append, ← happ] at h
      by_cases hl : f.data.length + (jobs p).appended.length > env.max
      · rw [if_pos hl] at h hstep
        cases h
        exact .inl ⟨rfl, b1, b2, b3, .step hby (by rw [hstep]; simp only [setPc, set_same hp])⟩
      · rw [if_neg hl] at h hstep
        have s1 : Solo env.max jobs p (p + 1) ⟨w.silos, w.holds, I, P⟩ ⟨w.silos, w.holds, I, P.set p (.appLock sl.no sn)⟩ := .step hby hstep
        unfold appendTo at h
        rw [b2] at h
        by_cases hh : w.holds sn = true
        · rw [if_pos hh] at h
          cases h
          refine .inl ⟨rfl, b1, b2, b3, s1.trans (solo_go (set_get hp) ?_)⟩
          simp only [Commit.stepGo, hh, if_true, setPc, List.set_set, set_same hp]
        · rw [if_neg hh] at h
          simp only [Res.bind_eq_ok, Res.check_eq_ok, exists_const, Res.pure_eq, Res.ok.injEq, Prod.mk.injEq] at h
          obtain ⟨c1, d, c2, rfl, rfl⟩ := h
          have c1 := of_decide_eq_true c1
          have hh : w.holds sn = false := by simpa using hh
          have hw : f.writable = true := by simpa using hw
          refine .inr (.inr ⟨rfl, rfl, f.data.length, by rw [← b3]; exact c2, ?_⟩)
          have s2 : Solo env.max jobs p (p + 1) ⟨w.silos, w.holds, I, P.set p (.appLock sl.no sn)⟩ ⟨w.silos, upd w.holds sn true, I, P.set p (.appCheck sl.no sn)⟩ :=
            solo_go (set_get hp) (by simp only [Commit.stepGo, hh, Bool.false_eq_true, if_false, setPc, List.set_set])
          have s3 : Solo env.max jobs p (p + 1) ⟨w.silos, upd w.holds sn true, I, P.set p (.appCheck sl.no sn)⟩ ⟨w.silos, upd w.holds sn true, I, P.set p (.appWrite sl.no sn)⟩ :=
            solo_go (set_get hp) (by
              have : Commit.hasRoom env.max (jobs p) (w.silos sn) = true := by
                simp only [hf, Commit.hasRoom, hw, Bool.true_and, decide_eq_true_eq]; omega
              simp only [Commit.stepGo, this, if_true, setPc, List.set_set])
          have s4 : Solo env.max jobs p (p + 1) ⟨w.silos, upd w.holds sn true, I, P.set p (.appWrite sl.no sn)⟩
              ⟨upd w.silos sn (some { f with data := f.data ++ (jobs p).appended }), upd w.holds sn true, I, P.set p (.appIdx sl.no sn f.data.length)⟩ :=
            solo_go (set_get hp) (by
              simp only [Commit.stepGo, Commit.stepWrite, hf]
              rw [if_neg (by omega)]
              simp only [setPc, List.set_set])
          have s5 : Solo env.max jobs p (p + 1) ⟨upd w.silos sn (some { f with data := f.data ++ (jobs p).appended }), upd w.holds sn true, I, P.set p (.appIdx sl.no sn f.data.length)⟩
              ⟨upd w.silos sn (some { f with data := f.data ++ (jobs p).appended }), upd w.holds sn true, I ++ [⟨p, .app, sn, f.data.length⟩], P.set p (.appUnlock sl.no sn true)⟩ :=
            solo_go (set_get hp) (by simp only [Commit.stepGo, setPc, List.set_set])
          have s6 : Solo env.max jobs p (p + 1) ⟨upd w.silos sn (some { f with data := f.data ++ (jobs p).appended }), upd w.holds sn true, I ++ [⟨p, .app, sn, f.data.length⟩], P.set p (.appUnlock sl.no sn true)⟩
              ⟨upd w.silos sn (some { f with data := f.data ++ (jobs p).appended }), w.holds, I ++ [⟨p, .app, sn, f.data.length⟩], P.set p (.del sl.no)⟩ :=
            solo_go (set_get hp) (by simp only [Commit.stepGo, setPc, List.set_set, if_true, upd_back _ _ hh])
          have e : upd wb.silos sn (some { f with data := f.data ++ (env.pack9 (headerSerialize env.pfx sl.hd) ++ sl.tail) }) =
              upd w.silos sn (some { f with data := f.data ++ (jobs p).appended }) := by rw [b1, happ]
          simp only [e]
          exact s1.trans (s2.trans (s3.trans (s4.trans (s5.trans s6))))

/-- The search for a silo to append to. -/
theorem solo_loop {env : Env} {sl : Sl} {id : Bytes} {jobs : Nat → Commit.Job} {p : Nat} (hj : jobs p = soloJob env sl false) {I : List Commit.Entry} {P : List Pc}
    (hp : P[p]? = some (.ready sl.no)) (k : Nat) : ∀ {sn : Nat} {w w1 : World} {r : Bool}, (0 < k → sn + k ≤ sl.no) →
    appendLoop env sl (env.pack9 (headerSerialize env.pfx sl.hd)) id k sn w = .ok (w1, r) →
    (r = false ∧ w1.silos = w.silos ∧ w1.holds = w.holds ∧ w1.dir = w.dir ∧
      Solo env.max jobs p (p + 1) ⟨w.silos, w.holds, I, P⟩ ⟨w.silos, w.holds, I, P.set p (.final sl.no)⟩) ∨
    (r = true ∧ w1.holds = w.holds ∧ ∃ n off, idxInsert w.dir id sl.idx n off none = .ok w1.dir ∧
      Solo env.max jobs p (p + 1) ⟨w.silos, w.holds, I, P⟩ ⟨w1.silos, w.holds, I ++ [⟨p, .app, n, off⟩], P.set p (.del sl.no)⟩) := by
  induction k with
  | zero =>
    intro sn w w1 r _ h
    cases h
    refine .inl ⟨rfl, rfl, rfl, rfl, .step (a := .giveUp p) ⟨Nat.le_refl _, Nat.lt_succ_self _⟩ ?_⟩
    simp only [Commit.step, hp, Option.bind_some, Commit.stepGiveUp, setPc]
  | succ k ih =>
    intro sn w w1 r hk h
    rw [appendLoop] at h
    simp only [Res.bind_eq_ok] at h
    obtain ⟨⟨w2, r2⟩, h1, h2⟩ := h
    have hk := hk (by omega)
    rcases solo_attempt h1 (by omega) hj hp with ⟨rfl, a1, a2, a3, a4⟩ | ⟨rfl, a1, a2, a3, a4⟩ | ⟨rfl, a2, off, a3, a4⟩
    · simp only at h2
      rw [if_neg (by decide), if_neg (by decide)] at h2
      have := ih (fun _ => by omega) h2
      rw [a1, a2, a3] at this
      rcases this with ⟨b1, b2, b3, b4, b5⟩ | ⟨b1, b2, n, off, b3, b4⟩
      · exact .inl ⟨b1, b2, b3, b4, a4.trans b5⟩
      · exact .inr ⟨b1, b2, n, off, b3, a4.trans b4⟩
    · simp only at h2
      rw [if_neg (by decide), if_pos (by trivial)] at h2
      cases h2
      exact .inl ⟨rfl, a1, a2, a3, a4⟩
    · simp only at h2
      rw [if_pos (by trivial)] at h2
      cases h2
      exact .inr ⟨rfl, a2, sn, off, a3, a4⟩

/-- `Wsilo_Install`. -/
theorem solo_install {env : Env} {w w' : World} {sl : Sl} {segd : Bool} {id : Bytes} {rid : Option Bytes} (h : install env w sl segd id rid = .ok w')
    (hb : sl.hdStart + sl.hdLen ≤ sl.hold.length) {jobs : Nat → Commit.Job} {p : Nat} (hj : jobs p = soloJob env sl segd) {I : List Commit.Entry} {P : List Pc}
    (hp : P[p]? = some (.final sl.no)) : ∃ es is, SameEntries es is ∧ insertAll w.dir is = .ok w'.dir ∧
      Solo env.max jobs p (p + 1) ⟨w.silos, w.holds, I, P⟩ ⟨w'.silos, w'.holds, I ++ es, P.set p .done⟩ := by
  unfold install at h
  simp only [Res.bind_eq_ok, Res.check_eq_ok, exists_const, Res.pure_eq, Res.ok.injEq] at h
  obtain ⟨file, h1, fl, h2, d1, h3, d2, h4, h5, rfl⟩ := h
  have h5 := of_decide_eq_true h5
  have hfile : (jobs p).hold sl.no = file := by
    rw [hj]
    unfold Commit.Job.hold soloJob
    simp only [h1]
    obtain ⟨hh, -, k2, k3⟩ := finalHold_inv h1
    have l1 : (sl.hold.take sl.hdStart).length = sl.hdStart := by rw [List.length_take]; omega
    rw [k3]
    simp only [List.append_assoc]
    rw [List.drop_left' l1, List.take_left' k2]
    rfl
  have hinfo : ((jobs p).info sl.no).length = sl.hdStart := by
    rw [hj]; unfold soloJob; simp only [List.length_take]; omega
  refine ⟨[⟨p, .obj, sl.no, sl.hdStart⟩, ⟨p, .info, sl.no, 0⟩], [⟨id, fl, sl.no, sl.hdStart, rid⟩, ⟨sl.infoId, F_WARCINFO, sl.no, 0, none⟩], rfl, ?_, ?_⟩
  · obtain ⟨-, -, c3⟩ := putCache_keeps { w with dir := d2, silos := upd w.silos sl.no (some { data := file, writable := true }) } (bumpNon sl.no w.cache)
    unfold abandon
    simp only [insertAll, h3, h4, Res.ok_bind, c3]
  · obtain ⟨c1, c2, -⟩ := putCache_keeps { w with dir := d2, silos := upd w.silos sl.no (some { data := file, writable := true }) } (bumpNon sl.no w.cache)
    unfold abandon
    simp only [c1, c2]
    have s1 : Solo env.max jobs p (p + 1) ⟨w.silos, w.holds, I, P⟩ ⟨w.silos, w.holds, I ++ [⟨p, .obj, sl.no, sl.hdStart⟩], P.set p (.install sl.no)⟩ :=
      solo_go hp (by simp only [Commit.stepGo, setPc, hinfo])
    have s2 : Solo env.max jobs p (p + 1) ⟨w.silos, w.holds, I ++ [⟨p, .obj, sl.no, sl.hdStart⟩], P.set p (.install sl.no)⟩
        ⟨w.silos, w.holds, I ++ [⟨p, .obj, sl.no, sl.hdStart⟩, ⟨p, .info, sl.no, 0⟩], P.set p (.linking sl.no)⟩ :=
      solo_go (set_get hp) (by simp only [Commit.stepGo, setPc, List.set_set, List.append_assoc, List.cons_append, List.nil_append])
    have s3 : Solo env.max jobs p (p + 1) ⟨w.silos, w.holds, I ++ [⟨p, .obj, sl.no, sl.hdStart⟩, ⟨p, .info, sl.no, 0⟩], P.set p (.linking sl.no)⟩
        ⟨upd w.silos sl.no (some { data := file, writable := true }), w.holds, I ++ [⟨p, .obj, sl.no, sl.hdStart⟩, ⟨p, .info, sl.no, 0⟩], P.set p (.del sl.no)⟩ :=
      solo_go (set_get hp) (by simp only [Commit.stepGo, Commit.stepLink, h5, hfile, setPc, List.set_set])
    have s4 : Solo env.max jobs p (p + 1) ⟨upd w.silos sl.no (some { data := file, writable := true }), w.holds, I ++ [⟨p, .obj, sl.no, sl.hdStart⟩, ⟨p, .info, sl.no, 0⟩], P.set p (.del sl.no)⟩
        ⟨upd w.silos sl.no (some { data := file, writable := true }), upd w.holds sl.no false, I ++ [⟨p, .obj, sl.no, sl.hdStart⟩, ⟨p, .info, sl.no, 0⟩], P.set p .done⟩ :=
      solo_go (set_get hp) (by simp only [Commit.stepGo, setPc, List.set_set])
    exact s1.trans (s2.trans (s3.trans s4))

/-- `Wsilo_Commit`. -/
theorem solo_commit {env : Env} {w w' : World} {sl : Sl} {segd : Bool} {id : Bytes} {rid : Option Bytes} (h : wsiloCommit env w sl segd id rid = .ok w')
    (hb : sl.hdStart + sl.hdLen ≤ sl.hold.length) {jobs : Nat → Commit.Job} {p : Nat} (hj : jobs p = soloJob env sl segd) {I : List Commit.Entry} {P : List Pc}
    (hp : P[p]? = some (.ready sl.no)) : ∃ es is, SameEntries es is ∧ insertAll w.dir is = .ok w'.dir ∧
      Solo env.max jobs p (p + 1) ⟨w.silos, w.holds, I, P⟩ ⟨w'.silos, w'.holds, I ++ es, P.set p .done⟩ := by
  unfold wsiloCommit at h
  split at h
  · rename_i hc
    obtain ⟨rfl, hc⟩ := hc
    simp only [Res.bind_eq_ok] at h
    obtain ⟨⟨w1, r⟩, h1, h2⟩ := h
    simp only at h2
    rcases solo_loop hj hp (I := I) _ (fun _ => by omega) h1 with ⟨rfl, a1, a2, a3, a4⟩ | ⟨rfl, a2, n, off, a3, a4⟩
    · simp only [Bool.false_eq_true, if_false] at h2
      obtain ⟨es, is, b1, b2, b3⟩ := solo_install h2 hb hj (I := I) (set_get hp)
      rw [a1, a2, List.set_set] at b3
      rw [a3] at b2
      exact ⟨es, is, b1, b2, a4.trans b3⟩
    · simp only [if_true, Res.pure_eq, Res.ok.injEq] at h2
      subst h2
      refine ⟨[⟨p, .app, n, off⟩], [⟨id, sl.idx, n, off, none⟩], rfl, ?_, ?_⟩
      · simp only [insertAll, a3, Res.ok_bind, abandon]
      · refine a4.trans (solo_go (set_get hp) ?_)
        simp only [Commit.stepGo, setPc, List.set_set, abandon, a2]
  · obtain ⟨es, is, b1, b2, b3⟩ := solo_install h hb hj (I := I) (P := P.set p (.final sl.no)) (set_get hp)
    rw [List.set_set] at b3
    refine ⟨es, is, b1, b2, .trans (.step (a := .giveUp p) ⟨Nat.le_refl _, Nat.lt_succ_self _⟩ ?_) b3⟩
    simp only [Commit.step, hp, Option.bind_some, Commit.stepGiveUp, setPc]

end Verif.Props
