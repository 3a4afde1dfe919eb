/-
C89: what processes that store at the same time have finished storing can be retrieved.
-/
import Verif.Props.Solo
import Verif.Props.Commit
import Verif.Props.Store
import Verif.Props.StoreExample
import Verif.Proofs.CommitTotal

namespace Verif.Props
open Verif Header Gzip Ident Index Wsilo Segjob Getjob Spec Cache Inflate
open _root_.Verif.Commit (upd Silo Act Pc St setPc)

/-! ### What the processes store, as records -/

/-- What a process stores: the record for its own silo and the one it would append to another silo, the warcinfo record of silo
`n`, and what `IDX_Insert` is told of the object. -/
structure Storing where
  own : Rec
  ownHdr : Hdr
  app : Rec
  appHdr : Hdr
  info : Nat → Rec
  infoHdr : Nat → Hdr
  id : Bytes
  flags : Nat
  cont : Option Bytes

/-- What `IDX_Insert` is told when an entry is made (wsilo.c:441-447, 471-474, 564-565). -/
def Storing.ins (k : Storing) (e : Commit.Entry) : Ins :=
  match e.kind with
  | .app => ⟨k.id, k.flags, e.silo, e.off, none⟩
  | .obj => ⟨k.id, k.flags, e.silo, e.off, k.cont⟩
  | .info => ⟨(k.infoHdr e.silo).id, F_WARCINFO, e.silo, e.off, none⟩

/-- The record an entry is made for. -/
def Storing.item (k : Storing) (e : Commit.Entry) : Item :=
  match e.kind with
  | .app => ⟨(k.ins e).entry, k.app, k.appHdr⟩
  | .obj => ⟨(k.ins e).entry, k.own, k.ownHdr⟩
  | .info => ⟨(k.ins e).entry, k.info e.silo, k.infoHdr e.silo⟩

/-- The bytes of the process are these records. -/
structure StoresOk (env : Env) (j : Commit.Job) (k : Storing) : Prop where
  own : k.own.bytes = j.hdr ++ j.body
  ownOk : k.own.Complete env.pfx k.ownHdr ∧ k.own.Fits env.ps
  ownId : k.ownHdr.id = k.id
  app : k.app.bytes = j.appended
  appOk : k.app.Complete env.pfx k.appHdr ∧ k.app.Fits env.ps
  appId : k.appHdr.id = k.id
  same : k.app.data = k.own.data
  info : ∀ n, (k.info n).bytes = j.info n
  infoOk : ∀ n, (k.info n).Complete env.pfx (k.infoHdr n) ∧ (k.info n).Fits env.ps

theorem item_entry (k : Storing) (e : Commit.Entry) : (k.item e).entry = (k.ins e).entry := by
  unfold Storing.item
  split <;> rfl

theorem ins_place (k : Storing) (e : Commit.Entry) : (k.ins e).silo = e.silo ∧ (k.ins e).off = e.off := by
  unfold Storing.ins
  split <;> exact ⟨rfl, rfl⟩

theorem item_at {env : Env} {jobs : Nat → Commit.Job} {ks : Nat → Storing} (hk : ∀ p, StoresOk env (jobs p) (ks p)) {s : St} {e : Commit.Entry}
    (h : e.Points jobs s) : ((ks e.proc).item e).At env.ps env.pfx s.silos := by
  obtain ⟨f, h1, ⟨post, h2⟩, h3⟩ := h
  have ok := hk e.proc
  have hw : e.want jobs = ((ks e.proc).item e).record.bytes ∧ ((ks e.proc).item e).record.Complete env.pfx ((ks e.proc).item e).hdr ∧
      ((ks e.proc).item e).record.Fits env.ps := by
    unfold Commit.Entry.want Storing.item
    cases e.kind with
    | app => exact ⟨ok.app.symm, ok.appOk⟩
    | obj => exact ⟨ok.own.symm, ok.ownOk⟩
    | info => exact ⟨(ok.info e.silo).symm, ok.infoOk e.silo⟩
  obtain ⟨p1, p2⟩ := ins_place (ks e.proc) e
  refine ⟨⟨f, f.data.take e.off, post, ?_, ?_, ?_⟩, hw.2⟩
  · rw [item_entry]
    show s.silos ((ks e.proc).ins e).silo = some f
    rw [p1]
    exact h1
  · rw [← hw.1, List.append_assoc, h2, List.take_append_drop]
  · rw [item_entry, List.length_take]
    show min e.off f.data.length = ((ks e.proc).ins e).off
    rw [p2]
    omega

/-! ### One entry for each object -/

/-- The entries process `p` made for its object. -/
def objEntries (p : Nat) (idx : List Commit.Entry) : List Commit.Entry := idx.filter fun e => decide (e.proc = p ∧ e.kind ≠ .info)

/-- How many entries a process has made in each place, if it has not dropped what it was about to store. -/
def objCount : Pc → Option Nat
  | .idle | .probed _ | .opening _ | .ready _ | .appLock _ _ | .appCheck _ _ | .appWrite _ _ | .appIdx _ _ _ | .appUnlock _ _ false | .final _ => some 0
  | .appUnlock _ _ true | .install _ | .linking _ | .del _ | .done => some 1
  | .dead => none

def CountOk (p : Nat) (s : St) : Prop := ∀ pc, s.procs[p]? = some pc → ∀ c, objCount pc = some c → (objEntries p s.idx).length = c

theorem count_move {p q : Nat} {s : St} (h : CountOk q s) {pc pc' : Pc} (hp : s.procs[p]? = some pc) {S : Nat → Option Silo} {H : Nat → Bool}
    (hc : objCount pc' = none ∨ objCount pc' = objCount pc) : CountOk q ⟨S, H, s.idx, s.procs.set p pc'⟩ := by
  intro x hx c hxc
  rcases Commit.get_set hx with ⟨rfl, rfl⟩ | ⟨-, hx⟩
  · rcases hc with hc | hc
    · rw [hc] at hxc; cases hxc
    · exact h pc hp c (by rw [← hc]; exact hxc)
  · exact h x hx c hxc

theorem count_entry {p q : Nat} {s : St} (h : CountOk q s) {pc pc' : Pc} (hp : s.procs[p]? = some pc) {S : Nat → Option Silo} {H : Nat → Bool} {e : Commit.Entry}
    (he : e.proc = p) (hc : ∃ c, objCount pc = some c ∧ objCount pc' = some (c + if e.kind = .info then 0 else 1)) :
    CountOk q ⟨S, H, s.idx ++ [e], s.procs.set p pc'⟩ := by
  intro x hx c hxc
  have hadd : (objEntries q (s.idx ++ [e])).length = (objEntries q s.idx).length + if p = q ∧ e.kind ≠ .info then 1 else 0 := by
    unfold objEntries
    rw [List.filter_append, List.length_append]
    congr 1
    rw [List.filter_cons, he]
    by_cases h : p = q ∧ e.kind ≠ .info
    · simp [h]
    · rw [if_neg (by simpa using h), if_neg h]; rfl
  show (objEntries q (s.idx ++ [e])).length = c
  rw [hadd]
  rcases Commit.get_set hx with ⟨rfl, rfl⟩ | ⟨hne, hx⟩
  · obtain ⟨c0, c1, c2⟩ := hc
    have := h pc hp c0 c1
    rw [c2] at hxc
    cases hxc
    rw [this]
    by_cases hk : e.kind = .info <;> simp [hk]
  · rw [if_neg (fun h => hne h.1.symm), h x hx c hxc]
    rfl

theorem count_step {max : Nat} {jobs : Nat → Commit.Job} {s s' : St} {a : Act} {q : Nat} (hd : a ≠ .drop q) (h : CountOk q s)
    (e : Commit.step max jobs s a = some s') : CountOk q s' := by
  cases a with
  | go p =>
    simp only [Commit.step, Option.bind_eq_some_iff] at e
    obtain ⟨pc, hp, e⟩ := e
    cases pc with
    | idle | ready _ | done | dead => cases e
    | probed n =>
      cases e
      exact count_move h hp (.inr (by split <;> rfl))
    | opening n =>
      simp only [Commit.stepGo, Option.some.injEq] at e
      split at e <;> subst e <;> exact count_move h hp (.inr rfl)
    | appLock n sn =>
      simp only [Commit.stepGo, Option.some.injEq] at e
      split at e <;> subst e <;> exact count_move h hp (.inr rfl)
    | appCheck n sn =>
      cases e
      exact count_move h hp (.inr (by split <;> rfl))
    | appWrite n sn =>
      simp only [Commit.stepGo, Commit.stepWrite, Option.some.injEq] at e
      split at e
      · subst e; exact count_move h hp (.inl rfl)
      · split at e <;> subst e
        · exact count_move h hp (.inl rfl)
        · exact count_move h hp (.inr rfl)
    | appIdx n sn off =>
      cases e
      exact count_entry h hp rfl ⟨0, rfl, rfl⟩
    | appUnlock n sn ok =>
      cases e
      exact count_move h hp (.inr (by cases ok <;> rfl))
    | final n =>
      cases e
      exact count_entry h hp rfl ⟨0, rfl, rfl⟩
    | install n =>
      cases e
      exact count_entry h hp rfl ⟨1, rfl, rfl⟩
    | linking n =>
      simp only [Commit.stepGo, Commit.stepLink, Option.some.injEq] at e
      split at e <;> subst e
      · exact count_move h hp (.inl rfl)
      · exact count_move h hp (.inr rfl)
    | del n =>
      cases e
      exact count_move h hp (.inr rfl)
  | create p n =>
    simp only [Commit.step, Option.bind_eq_some_iff] at e
    obtain ⟨pc, hp, e⟩ := e
    cases pc <;> simp only [Commit.stepCreate, Option.some.injEq, reduceCtorEq] at e
    subst e
    exact count_move h hp (.inr (by split <;> rfl))
  | append p sn =>
    simp only [Commit.step, Option.bind_eq_some_iff] at e
    obtain ⟨pc, hp, e⟩ := e
    cases pc <;> simp only [Commit.stepAppend, reduceCtorEq] at e
    split at e
    · simp only [Option.some.injEq, Commit.stepTry] at e
      split at e
      · subst e; exact count_move h hp (.inr rfl)
      · split at e
        · subst e; exact count_move h hp (.inr rfl)
        · split at e <;> subst e <;> exact count_move h hp (.inr rfl)
    · cases e
  | giveUp p =>
    simp only [Commit.step, Option.bind_eq_some_iff] at e
    obtain ⟨pc, hp, e⟩ := e
    cases pc <;> simp only [Commit.stepGiveUp, Option.some.injEq, reduceCtorEq] at e
    subst e
    exact count_move h hp (.inr rfl)
  | drop p =>
    simp only [Commit.step, Option.bind_eq_some_iff] at e
    obtain ⟨pc, hp, e⟩ := e
    cases pc <;> simp only [Commit.stepDrop, Option.some.injEq, reduceCtorEq] at e
    subst e
    intro x hx c hxc
    rcases Commit.get_set hx with ⟨rfl, -⟩ | ⟨-, hx⟩
    · exact absurd rfl hd
    · exact h x hx c hxc
  | crash p =>
    simp only [Commit.step] at e
    split at e
    · rename_i hl
      cases e
      exact count_move h (List.getElem?_eq_getElem hl) (.inl rfl)
    · cases e
  | rmHold n =>
    simp only [Commit.step] at e
    split at e
    · cases e
    · cases e; exact h
  | protect n =>
    simp only [Commit.step, Commit.stepProtect] at e
    split at e
    · cases e
    · cases e; exact h

theorem count_run {max : Nat} {jobs : Nat → Commit.Job} {q : Nat} (as : List Act) : ∀ {s s' : St}, (∀ a ∈ as, a ≠ .drop q) → CountOk q s →
    Commit.run max jobs s as = some s' → CountOk q s' := by
  induction as with
  | nil => intro s s' _ h e; cases e; exact h
  | cons a as ih =>
    intro s s' hd h e
    simp only [Commit.run, Option.bind_eq_some_iff] at e
    obtain ⟨t, e1, e2⟩ := e
    exact ih (fun a ha => hd a (List.mem_cons_of_mem _ ha)) (count_step (hd a (by simp)) h e1) e2

theorem count_start {s : St} (hs : Commit.Start s) (q : Nat) : CountOk q s := by
  intro pc hp c hc
  rw [hs.idle pc (List.mem_of_getElem? hp)] at hc
  cases hc
  rw [hs.idx]
  rfl

/-- C89: however many processes store at the same time, and whichever of them are killed, a process that came to its end and did
not find its object in the archive has made exactly one index entry for its object, and the entry points at the complete record. -/
theorem C89_once {max : Nat} {jobs : Nat → Commit.Job} {s s' : St} (hs : Commit.Start s) (as : List Act) (h : Commit.run max jobs s as = some s')
    {p : Nat} (hp : s'.procs[p]? = some .done) (hd : .drop p ∉ as) :
    ∃ e, s'.idx.filter (fun e => decide (e.proc = p ∧ e.kind ≠ .info)) = [e] ∧ e ∈ s'.idx ∧ e.proc = p ∧ e.kind ≠ .info ∧ e.Points jobs s' := by
  have hc := count_run as (fun a ha e => hd (e ▸ ha)) (count_start hs p) h .done hp 1 rfl
  obtain ⟨e, he⟩ := List.length_eq_one_iff.1 hc
  have hm : e ∈ objEntries p s'.idx := by rw [he]; simp
  obtain ⟨m1, m2⟩ := List.mem_filter.1 hm
  obtain ⟨m2, m3⟩ := of_decide_eq_true m2
  exact ⟨e, he, m1, m2, m3, C29_finished hs as h e m1 (by rw [m2]; exact hp)⟩

/-! ### Looking up objects that are not segmented -/

theorem conc_deliver {ps : Nat} {pfx : Bytes} {idSize : Nat} {w : World} {gj : GJ} (es : List Entry)
    (he : ∃ e ∈ es, verdict ps pfx idSize w gj e ≠ .ok .skip)
    (ho : ∀ e ∈ es, verdict ps pfx idSize w gj e = .ok .skip ∨ ∃ s, verdict ps pfx idSize w gj e = .ok (.take s)) :
    ∃ t ∈ es, ∃ s, verdict ps pfx idSize w gj t = .ok (.take s) ∧
      Spec.deliver (getjobIter ps pfx idSize w) es (.ok gj) = (.ok { gj with segs := gj.segs ++ [s] }, 1) := by
  induction es with
  | nil => obtain ⟨e, h, -⟩ := he; cases h
  | cons e es ih =>
    rcases ho e (by simp) with hs | ⟨s, hs⟩
    · obtain ⟨t, t1, s, t2, t3⟩ := ih (by
        obtain ⟨e', h1, h2⟩ := he
        rcases List.mem_cons.1 h1 with rfl | h1
        · exact absurd hs h2
        · exact ⟨e', h1, h2⟩) (fun x hx => ho x (by simp [hx]))
      refine ⟨t, List.mem_cons_of_mem _ t1, s, t2, ?_⟩
      simp only [Spec.deliver, getjobIter, hs, if_true]
      exact t3
    · exact ⟨e, by simp, s, hs, by simp [Spec.deliver, getjobIter, hs]⟩

/-- A record of an object that is not segmented. -/
def PlainItem (x : Item) : Prop :=
  FlWarcinfo x.entry.flags = false ∧ FlSegmented x.entry.flags = false ∧ FlFirst x.entry.flags = false ∧ FlLast x.entry.flags = false ∧ x.entry.cont = b!"00000000"

/-- If there are records with the ID, and none of them is a segment or a warcinfo record, one of them is found. -/
theorem getjobNew_plain {ps : Nat} {pfx : Bytes} {idSize : Nat} {w : World} {A : List Item} {id q : Bytes} {fuel : Nat}
    (hA : ∀ x ∈ A, Matches id x.entry = true → x.At ps pfx w.silos) (hq : idxValidId pfx idSize q = .ok id)
    (hx : ∃ x ∈ A, Matches id x.entry = true ∧ SameId x.hdr.id id) (hp : ∀ x ∈ A, Matches id x.entry = true → SameId x.hdr.id id → PlainItem x)
    (hfind : Finds w.dir A id) :
    ∃ x ∈ A, Matches id x.entry = true ∧ SameId x.hdr.id id ∧ ∃ gs, GotItems w 1 [x] gs ∧
      getjobNew ps pfx idSize (fuel + 1) w q = .ok (.job { id := id, err := .notFound, segs := gs }) := by
  obtain ⟨es, hes, hiter⟩ := hfind
  have hv : ∀ z ∈ A, Matches id z.entry = true → ¬ SameId z.hdr.id id ∧ verdict ps pfx idSize w { id := id, err := .notFound, segs := [] } z.entry = .ok .skip ∨
      SameId z.hdr.id id ∧ ∃ g, GotItem w z 1 g ∧ verdict ps pfx idSize w { id := id, err := .notFound, segs := [] } z.entry = .ok (.take g) := by
    intro z hz hm
    obtain ⟨f, pre, post, z1, z2, z3, z4⟩ := verdict_first (idSize := idSize) (id := id) (er := .notFound) (hA z hz hm)
    by_cases hs : SameId z.hdr.id id
    · obtain ⟨p1, p2, -⟩ := hp z hz hm hs
      refine .inr ⟨hs, gseg f.data z 1, ⟨f, pre, post, z1, z2, z3, rfl⟩, ?_⟩
      rw [z4, if_neg (by simpa using hs), p1, p2]
      simp
    · exact .inl ⟨hs, by rw [z4, if_pos hs]⟩
  obtain ⟨x0, h1, h2, h3⟩ := hx
  obtain ⟨t, t1, g, t2, t3⟩ := conc_deliver (ps := ps) (pfx := pfx) (idSize := idSize) (w := w) (gj := { id := id, err := .notFound, segs := [] }) es
    ⟨x0.entry, (hes _).2 ⟨h2, x0, h1, rfl⟩, by
      rcases hv x0 h1 h2 with ⟨h, -⟩ | ⟨-, g, -, h⟩
      · exact absurd h3 h
      · rw [h]; intro h; cases h⟩
    (by
      intro e he
      obtain ⟨m1, z, m2, rfl⟩ := (hes e).1 he
      rcases hv z m2 m1 with ⟨-, h⟩ | ⟨-, g, -, h⟩
      · exact .inl h
      · exact .inr ⟨g, h⟩)
  obtain ⟨m1, x, m2, rfl⟩ := (hes t).1 t1
  rcases hv x m2 m1 with ⟨-, h⟩ | ⟨hs, g', hg, h⟩
  · rw [h] at t2; cases t2
  rw [h] at t2
  cases t2
  obtain ⟨r, r1, r2, r3⟩ := hiter _ (getjobIter ps pfx idSize w) (.ok { id := id, err := .notFound, segs := [] })
  rw [t3] at r2 r3
  have hpos : ¬ r.2 ≤ 0 := by have := r3.2 (by simp); omega
  obtain ⟨p1, p2, p3, p4, p5⟩ := hp x m2 m1 hs
  obtain ⟨f, pre, post, x1, x2, x3, rfl⟩ := hg
  refine ⟨x, m2, m1, hs, [gseg f.data x 1], .cons ⟨f, pre, post, x1, x2, x3, rfl⟩ .nil, ?_⟩
  have e1 : isWarcinfo (gseg f.data x 1).flag = false := (testBit_flag _ _).trans p1
  have e2 : isSegmented (gseg f.data x 1).flag = false := (testBit_flag _ _).trans p2
  have e3 : isLastseg (gseg f.data x 1).flag = false := (testBit_flag _ _).trans p4
  have e4 : isFirstseg (gseg f.data x 1).flag = false := (testBit_flag _ _).trans p3
  unfold getjobNew
  rw [hq]
  simp only
  rw [getLoop, r1]
  simp only [Res.ok_bind, r2, if_neg hpos, List.nil_append, List.getLast?_singleton]
  rw [e1, e2]
  simp only [Bool.not_false, Res.check_true, Res.ok_bind, if_true, plainOk]
  rw [e3, e4, show (gseg f.data x 1).cont = b!"00000000" from p5]
  simp

/-! ### Getting what was stored -/

/-- The records of the archive after the processes have made the entries `idx`, with the records `A` that were there before. -/
def recordsOf (ks : Nat → Storing) (A : List Item) (idx : List Commit.Entry) : List Item := A ++ idx.map fun e => (ks e.proc).item e

/-- The archive directory `w'`, after the processes have come from `s` to `s'`: the silos are theirs, and the index is what it was
with their entries inserted, one after the other (C09), and with the index housekept any number of times in between. -/
structure AfterRun (env : Env) (jobs : Nat → Commit.Job) (ks : Nat → Storing) (w w' : World) (ops : List IdxOp) (A : List Item) (s s' : St) : Prop where
  before : ArchInv env w ops A
  start : Commit.Start s
  silos : s.silos = w.silos
  silos' : w'.silos = s'.silos
  index : ∃ new, runOps w.dir new = .ok w'.dir ∧ (∀ o ∈ new, o.Valid) ∧ inserts new = s'.idx.map fun e => (ks e.proc).ins e
  few : (recordsOf ks A s'.idx).length < 2 ^ 31
  stores : ∀ p, StoresOk env (jobs p) (ks p)

theorem run_grown {max : Nat} {jobs : Nat → Commit.Job} (as : List Act) {s s' : St} (h : Commit.run max jobs s as = some s') : Grown s.silos s'.silos := by
  intro n f hf
  obtain ⟨f', h1, post, h2⟩ := (C26_never_changed as h).1 n f hf
  exact ⟨f', post, h1, h2.symm⟩

theorem afterRun_finds {env : Env} {jobs : Nat → Commit.Job} {ks : Nat → Storing} {w w' : World} {ops : List IdxOp} {A : List Item} {s s' : St}
    (ha : AfterRun env jobs ks w w' ops A s s') (hne : recordsOf ks A s'.idx ≠ []) {k : Bytes} (hk : ∀ c ∈ k, isHex c = true) (h8 : 8 ≤ k.length)
    (hs : ∀ F, w'.dir.sorted = some F → SeekSafe F k) : Finds w'.dir (recordsOf ks A s'.idx) k := by
  obtain ⟨new, n1, n2, n3⟩ := ha.index
  have hent : (inserts (ops ++ new)).map Ins.entry = (recordsOf ks A s'.idx).map (·.entry) := by
    unfold recordsOf
    rw [inserts_append, List.map_append, List.map_append, ha.before.entries, n3, List.map_map, List.map_map]
    congr 1
    apply List.map_congr_left
    intro e _
    exact (item_entry _ e).symm
  have hl : (inserts (ops ++ new)).length = (recordsOf ks A s'.idx).length := by simpa using congrArg List.length hent
  have hfew := ha.few
  refine finds_history (ops ++ new) ?_ (by omega) ?_ ?_ ?_ hk h8 hs
  · intro o ho
    rcases List.mem_append.1 ho with h | h
    · exact ha.before.valid o h
    · exact n2 o h
  · intro h0
    rw [h0] at hl
    exact hne (List.length_eq_zero_iff.1 hl.symm)
  · rw [runOps_append, ha.before.dir]
    exact n1
  · intro e
    have h1 : e ∈ (inserts (ops ++ new)).map Ins.entry ↔ e ∈ (recordsOf ks A s'.idx).map (·.entry) := by rw [hent]
    simp only [List.mem_map] at h1
    exact h1.symm

theorem afterRun_at {env : Env} {jobs : Nat → Commit.Job} {ks : Nat → Storing} {w w' : World} {ops : List IdxOp} {A : List Item} {s s' : St}
    (ha : AfterRun env jobs ks w w' ops A s s') {as : List Act} (h : Commit.run env.max jobs s as = some s') {P : Entry → Prop}
    (hP : ∀ e ∈ s'.idx, P ((ks e.proc).ins e).entry → e.kind = .app ∨ s'.procs[e.proc]? = some .done) :
    ∀ x ∈ recordsOf ks A s'.idx, P x.entry → x.At env.ps env.pfx w'.silos := by
  intro x hx hp
  rw [ha.silos']
  rcases List.mem_append.1 hx with hx | hx
  · exact at_grown (by rw [← ha.silos]; exact run_grown as h) (ha.before.there x hx)
  · obtain ⟨e, he, rfl⟩ := List.mem_map.1 hx
    rw [item_entry] at hp
    refine item_at ha.stores ?_
    rcases hP e he hp with hk | hd
    · exact C29_appended ha.start as h e he hk
    · exact C29_finished ha.start as h e he hd

/-- C89: however many processes store at the same time, whatever happens to the others, and however often the index is housekept
meanwhile: getting the ID of a process that came to its end, and had an object that is not segmented, delivers the object.  Other
processes may have stored the same object at the same time.  What is left out: processes with index entries that cannot be told
from this one's by their keys, and which have not come to their ends (see the counterexample), and different records with the
same ID, or IDs for which the search is unsafe (C03). -/
theorem C89_get_partial {env : Env} (he : EnvOk env) {jobs : Nat → Commit.Job} {ks : Nat → Storing} {w w' : World} {ops : List IdxOp} {A : List Item} {s s' : St}
    (ha : AfterRun env jobs ks w w' ops A s s') (as : List Act) (h : Commit.run env.max jobs s as = some s')
    {p : Nat} (hp : s'.procs[p]? = some .done) (hd : .drop p ∉ as)
    (hid : ∀ c ∈ (ks p).id, isHex c = true) (hl : (ks p).id.length = env.idSize)
    (hothers : ∀ e ∈ s'.idx, Matches (ks p).id ((ks e.proc).ins e).entry = true → e.kind = .app ∨ s'.procs[e.proc]? = some .done)
    (hsame : ∀ x ∈ recordsOf ks A s'.idx, Matches (ks p).id x.entry = true → SameId x.hdr.id (ks p).id → PlainItem x ∧ x.record.data = (ks p).own.data)
    (hseek : ∀ F, w'.dir.sorted = some F → SeekSafe F (ks p).id)
    {q : Bytes} (hq : idxValidId env.pfx env.idSize q = .ok (ks p).id) (fuel : Nat) :
    ∃ gj, getjobNew env.ps env.pfx env.idSize (fuel + 1) w' q = .ok (.job gj) ∧
      ∀ cut : Bytes → List Bytes, (∀ b, (cut b).flatten = b) → getjobIterate env.ps cut gj collect [] false = .ok (ks p).own.data := by
  obtain ⟨e, -, e1, e2, e3, -⟩ := C89_once ha.start as h hp hd
  have ok := ha.stores p
  have hmem : (ks p).item e ∈ recordsOf ks A s'.idx :=
    List.mem_append_right _ (List.mem_map.2 ⟨e, e1, by rw [e2]⟩)
  have hent : ((ks p).item e).entry.key = padKey 24 (ks p).id ∧ ((ks p).item e).hdr.id = (ks p).id := by
    unfold Storing.item Storing.ins
    cases hk : e.kind with
    | app => exact ⟨rfl, ok.appId⟩
    | obj => exact ⟨rfl, ok.ownId⟩
    | info => exact absurd hk e3
  have hm : Matches (ks p).id ((ks p).item e).entry = true := by
    unfold Matches
    rw [hent.1]
    exact pad_prefix
  obtain ⟨x, x1, x2, x3, gs, x4, x5⟩ := getjobNew_plain (fuel := fuel)
    (afterRun_at ha h (P := fun y => Matches (ks p).id y = true) hothers) hq
    ⟨_, hmem, hm, by rw [hent.2]; rfl⟩ (fun x hx m1 m2 => (hsame x hx m1 m2).1)
    (afterRun_finds ha (fun h0 => by rw [h0] at hmem; cases hmem) hid (by have := he.idSize; omega) hseek)
  refine ⟨_, x5, fun cut hcut => ?_⟩
  have hc : ∀ y ∈ [x], y.record.Complete env.pfx y.hdr := by
    intro y hy
    rw [List.mem_singleton] at hy
    rw [hy]
    exact (afterRun_at ha h (P := fun y => Matches (ks p).id y = true) hothers x x1 x2).2.1
  unfold getjobIterate
  rw [if_pos rfl]
  simp only
  rw [iterPlain_items x4 hc, deliver_collectFn]
  simp only [Res.ok_bind, Res.pure_eq, List.nil_append, List.flatMap_cons, List.flatMap_nil, List.append_nil, hcut, (hsame x x1 x2 x3).2]

/-- The records the search for an object can come upon. -/
def near (id : Bytes) (x : Item) (ys : List Item) (y : Entry) : Bool := Matches id y || (x :: ys).any fun z => Matches z.entry.cont y

theorem linked_filter {pfx : Bytes} {A : List Item} {id : Bytes} {f : Item → Bool} (ys : List Item) : ∀ (n : Nat) (x : Item),
    (∀ z ∈ A, (∃ y ∈ x :: ys, Matches y.entry.cont z.entry = true) → f z = true) → Linked pfx A id n x ys → Linked pfx (A.filter f) id n x ys := by
  induction ys with
  | nil => intro n x _ h; exact h
  | cons y ys ih =>
    intro n x hf h
    obtain ⟨h1, h2, h3, h4, h5, h6, h7, h8, h9⟩ := h
    exact ⟨h1, h2, List.mem_filter.2 ⟨h3, hf y h3 ⟨x, by simp, h2⟩⟩, h4, h5, h6, h7, h8,
      ih (n + 1) y (fun z hz ⟨u, hu, hm⟩ => hf z hz ⟨u, List.mem_cons_of_mem _ hu, hm⟩) h9⟩

theorem onlyChain_filter {pfx : Bytes} {idSize : Nat} {A : List Item} {id : Bytes} {f : Item → Bool} (ys : List Item) : ∀ (x : Item),
    OnlyChain pfx idSize A id x ys → OnlyChain pfx idSize (A.filter f) id x ys := by
  induction ys with
  | nil => intro _ _; trivial
  | cons y ys ih => intro x h; exact ⟨fun z hz => h.1 z (List.mem_filter.1 hz).1, ih y h.2⟩

theorem finds_filter {d : Dir} {A : List Item} {k : Bytes} {f : Item → Bool} (hf : ∀ z ∈ A, Matches k z.entry = true → f z = true) (h : Finds d A k) :
    Finds d (A.filter f) k := by
  obtain ⟨es, h1, h2⟩ := h
  refine ⟨es, fun e => ?_, h2⟩
  rw [h1]
  constructor
  · rintro ⟨m, x, hx, rfl⟩
    exact ⟨m, x, List.mem_filter.2 ⟨hx, hf x hx m⟩, rfl⟩
  · rintro ⟨m, x, hx, rfl⟩
    exact ⟨m, x, (List.mem_filter.1 hx).1, rfl⟩

theorem recordsOf_cont {env : Env} {jobs : Nat → Commit.Job} {ks : Nat → Storing} {w w' : World} {ops : List IdxOp} {A : List Item} {s s' : St}
    (ha : AfterRun env jobs ks w w' ops A s s') {x : Item} (hx : x ∈ recordsOf ks A s'.idx) : (∀ c ∈ x.entry.cont, isHex c = true) ∧ x.entry.cont.length = 8 := by
  rcases List.mem_append.1 hx with hx | hx
  · exact arch_cont ha.before hx
  · obtain ⟨e, he, rfl⟩ := List.mem_map.1 hx
    obtain ⟨new, -, n2, n3⟩ := ha.index
    have hi : (ks e.proc).ins e ∈ inserts new := by rw [n3]; exact List.mem_map_of_mem he
    have hv : ((ks e.proc).ins e).Valid := by
      have hm : ∀ (ops : List IdxOp), (∀ o ∈ ops, o.Valid) → ∀ i ∈ inserts ops, i.Valid := by
        intro ops
        induction ops with
        | nil => intro _ i hi; cases hi
        | cons o ops ih =>
          intro h i hi
          cases o with
          | insert j =>
            rcases List.mem_cons.1 hi with rfl | hi
            · exact h (.insert i) (by simp)
            · exact ih (fun o ho => h o (by simp [ho])) i hi
          | housekeep n => exact ih (fun o ho => h o (by simp [ho])) i hi
      exact hm new n2 _ hi
    rw [item_entry]
    show (∀ c ∈ padKey 8 _, _) ∧ (padKey 8 _).length = 8
    apply padKey_hex
    intro c hc
    cases hco : ((ks e.proc).ins e).cont with
    | none => rw [hco] at hc; cases hc
    | some k => rw [hco] at hc; exact hv.2.2.2.2 k hco c hc

/-- The records that the search comes upon are there, and found. -/
theorem afterRun_gettable {env : Env} (he : EnvOk env) {jobs : Nat → Commit.Job} {ks : Nat → Storing} {w w' : World} {ops : List IdxOp} {A : List Item} {s s' : St}
    (ha : AfterRun env jobs ks w w' ops A s s') (as : List Act) (h : Commit.run env.max jobs s as = some s')
    {id : Bytes} {x : Item} {ys : List Item} (hid : ∀ c ∈ id, isHex c = true) (hl : id.length = env.idSize)
    (ho : IsObject env.pfx (recordsOf ks A s'.idx) id x ys) (hc : Clear env w' (recordsOf ks A s'.idx) id x ys)
    (hothers : ∀ e ∈ s'.idx, near id x ys ((ks e.proc).ins e).entry = true → e.kind = .app ∨ s'.procs[e.proc]? = some .done) :
    Gettable env.ps env.pfx env.idSize w' ((recordsOf ks A s'.idx).filter fun z => near id x ys z.entry) id x ys := by
  obtain ⟨f, hf0⟩ : ∃ f : Item → Bool, f = fun z => near id x ys z.entry := ⟨_, rfl⟩
  have hne : recordsOf ks A s'.idx ≠ [] := by intro h; have := ho.1; rw [h] at this; cases this
  have hid8 : 8 ≤ id.length := by have := he.idSize; omega
  have hfm : ∀ z : Item, Matches id z.entry = true → f z = true := by intro z hz; rw [hf0]; simp [near, hz]
  have hfc : ∀ (z : Item), (∃ y ∈ x :: ys, Matches y.entry.cont z.entry = true) → f z = true := by
    rintro z ⟨y, hy, hz⟩
    rw [hf0]
    show (Matches id z.entry || (x :: ys).any _) = true
    rw [Bool.or_eq_true]
    exact .inr (List.any_eq_true.2 ⟨y, hy, hz⟩)
  show Gettable env.ps env.pfx env.idSize w' ((recordsOf ks A s'.idx).filter fun z => near id x ys z.entry) id x ys
  rw [← hf0]
  refine ⟨?_, ?_, ?_, onlyChain_filter ys x hc.chain, ?_, ?_⟩
  · intro z hz
    obtain ⟨z1, z2⟩ := List.mem_filter.1 hz
    rw [hf0] at z2
    exact afterRun_at ha h (P := fun y => near id x ys y = true) hothers z z1 z2
  · obtain ⟨o1, o2, o3, o4, o5⟩ := ho
    refine ⟨List.mem_filter.2 ⟨o1, hfm x o3⟩, o2, o3, o4, ?_⟩
    rcases o5 with o5 | ⟨o5, o6, o7, o8⟩
    · exact .inl o5
    · exact .inr ⟨o5, o6, o7, linked_filter ys 1 x (fun z _ => hfc z) o8⟩
  · exact fun z hz => hc.first z (List.mem_filter.1 hz).1
  · exact finds_filter (fun z _ => hfm z) (afterRun_finds ha hne hid hid8 (fun F hF => (hc.seek F hF).1))
  · apply finds_chain
    intro y hy
    obtain ⟨c1, c2⟩ := recordsOf_cont ha (object_mem ho y hy)
    exact finds_filter (fun z _ hz => hfc z ⟨y, hy, hz⟩) (afterRun_finds ha hne c1 (by omega) (fun F hF => (hc.seek F hF).2 y hy))

/-- C89, segmented objects: if the segments of an object are in the archive, stored by any number of processes at the same time, and
all records that the search for it comes upon were stored by processes that came to their ends, or before, getting its ID delivers
the segments one after the other. -/
theorem C89_object_partial {env : Env} (he : EnvOk env) {jobs : Nat → Commit.Job} {ks : Nat → Storing} {w w' : World} {ops : List IdxOp} {A : List Item} {s s' : St}
    (ha : AfterRun env jobs ks w w' ops A s s') (as : List Act) (h : Commit.run env.max jobs s as = some s')
    {id : Bytes} {x : Item} {ys : List Item} (hid : ∀ c ∈ id, isHex c = true) (hl : id.length = env.idSize)
    (ho : IsObject env.pfx (recordsOf ks A s'.idx) id x ys) (hc : Clear env w' (recordsOf ks A s'.idx) id x ys)
    (hothers : ∀ e ∈ s'.idx, near id x ys ((ks e.proc).ins e).entry = true → e.kind = .app ∨ s'.procs[e.proc]? = some .done)
    {q : Bytes} (hq : idxValidId env.pfx env.idSize q = .ok id) {fuel : Nat} (hf : ys.length < fuel) :
    ∃ gj, getjobNew env.ps env.pfx env.idSize fuel w' q = .ok (.job gj) ∧ gj.segs.map (·.hdr) = (x :: ys).map (·.hdr) ∧
      ∀ cut : Bytes → List Bytes, (∀ b, (cut b).flatten = b) → getjobIterate env.ps cut gj collect [] false = .ok ((x :: ys).map (·.record.data)).flatten := by
  obtain ⟨gj, g1, g2, g3, -⟩ := C33_get_partial (afterRun_gettable he ha as h hid hl ho hc hothers) hq hf
  exact ⟨gj, g1, g2, g3⟩

/-! ### The processes of `store` -/

/-- C89: what `Wsilo_Commit` has to do for a finished hold file are records as above, whether it is installed or appended. -/
theorem C89_ready {env : Env} (he : EnvOk env) {sl : Sl} {content file : Bytes} (hr : Ready env sl content) (hfile : finalHold env sl = .ok file)
    (htext : (headerSerialize env.pfx sl.hd).length + 84 ≤ env.ps) (segd : Bool) (fl : Nat) (rid : Option Bytes) :
    ∃ k, StoresOk env (soloJob env sl segd) k ∧ k.own.data = content ∧ k.id = sl.hd.id ∧ k.flags = fl ∧ k.cont = rid ∧ infoHdr env sl.no = .ok (k.infoHdr sl.no) := by
  obtain ⟨h', p1, p2, p3⟩ := finalHold_inv hfile
  obtain ⟨ih, info, res, gz, i1, i2, i3, i4, i5, i6, i7⟩ := hr.hold
  have t1 : sl.hold.take sl.hdStart = info := by
    rw [i5, ← i3, List.append_assoc, List.take_left]
  have t2 : sl.tail = gz ++ crnlcrnl := by
    unfold Sl.tail
    rw [i5, ← i3, ← i4, ← List.length_append, List.drop_left]
  have hn : Neat h' := by
    rcases p1 with rfl | ⟨n, p1⟩
    · exact hr.neat
    · exact neat_set hr.neat p1 (by decide) (clean_replicate n)
  have hid : h'.id = sl.hd.id := by
    rcases p1 with rfl | ⟨n, p1⟩
    · rfl
    · exact (headerSet_inv hr.neat.1 p1).2.1
  have hgrow := he.grow (headerSerialize env.pfx h')
  have hps := he.ps
  have hfits := hr.fits
  obtain ⟨m1, m2⟩ := he.pack0 _ (serialize_ne env.pfx h') (by omega)
  obtain ⟨q1, q2⟩ := neat_parse he hn (by rw [hid]; exact hr.id)
  obtain ⟨m3, m4⟩ := he.pack9 _ (serialize_ne env.pfx sl.hd) (by omega)
  obtain ⟨q3, q4⟩ := neat_parse he hr.neat hr.id
  obtain ⟨y, -, y2, y3, -, y5, -⟩ := info_at he hr.no i1 (s := fun _ => some ⟨info, true⟩) (f := ⟨info, true⟩) (post := []) rfl (by simp)
  have hh : (soloJob env sl segd).hdr = env.pack0 (headerSerialize env.pfx h') := by
    unfold soloJob
    simp only [hfile]
    rw [p3, t1, List.append_assoc, ← i3, List.drop_left, ← p2, List.take_left]
  refine ⟨⟨⟨headerSerialize env.pfx h', content, env.pack0 (headerSerialize env.pfx h'), gz⟩, h',
    ⟨headerSerialize env.pfx sl.hd, content, env.pack9 (headerSerialize env.pfx sl.hd), gz⟩, sl.hd, fun _ => y.record, fun _ => ih, sl.hd.id, fl, rid⟩,
    ⟨?_, ?_, hid, ?_, ?_, rfl, rfl, ?_, ?_⟩, rfl, rfl, rfl, rfl, i1.1⟩
  · rw [hh]
    simp only [Rec.bytes, soloJob, t2, crnl_sep, List.append_assoc]
  · exact ⟨⟨m1, i6, q1, q2⟩, ⟨by simp only; omega, by simp only; omega⟩⟩
  · simp only [Rec.bytes, Commit.Job.appended, soloJob, t2, crnl_sep, List.append_assoc]
  · exact ⟨⟨m3, i6, q3, q4⟩, ⟨by simp only; omega, by simp only; omega⟩⟩
  · intro _
    simp only [soloJob, y5, t1]
  · intro _
    rw [← y3]
    exact y2.2

/-- The one process of an object of one segment. -/
theorem solo_commitJob_one {σ : Type} {env : Env} {fuel : Nat} {w w' : World} {sj : Segjob.Job σ} {uri : Bytes} {s : Seg} (hseg : sj.segs = [s])
    (hb : s.silo.hdStart + s.silo.hdLen ≤ s.silo.hold.length) (e : commitJob env fuel w sj = .ok (w', uri)) :
    uri = env.pfx ++ s.hdr.id ∧ (∀ c ∈ s.hdr.id, isHex c = true) ∧ s.hdr.id.length = env.idSize ∧
    ∀ (jobs : Nat → Commit.Job) (I : List Commit.Entry) (P Q : List Pc), JobsAre jobs P [soloJob env s.silo false] →
      ∃ es is, SameEntries es is ∧ insertAll w.dir is = .ok w'.dir ∧
        Solo env.max jobs P.length (P.length + 1) ⟨w.silos, w.holds, I, P ++ ([Pc.ready s.silo.no] ++ Q)⟩ ⟨w'.silos, w'.holds, I ++ es, P ++ ([.done] ++ Q)⟩ := by
  unfold commitJob at e
  rw [Res.bind_eq_ok] at e
  obtain ⟨-, -, e⟩ := e
  rw [hseg] at e
  simp only [Res.bind_eq_ok] at e
  obtain ⟨s', f1, id, f2, g, -, e⟩ := e
  rw [if_pos trivial] at f1
  cases f1
  obtain ⟨u1, u2, u3, u4⟩ := digest2Ident_inv f2
  cases g with
  | job g =>
    simp only [Res.pure_eq, Res.ok.injEq, Prod.mk.injEq] at e
    obtain ⟨rfl, rfl⟩ := e
    refine ⟨u1, u3, u4, fun jobs I P Q _ => ?_⟩
    obtain ⟨d1, d2⟩ := solo_destroy (max := env.max) (jobs := jobs) [s] (w := w) (I := I) (P := P) (Q := Q)
    refine ⟨[], [], rfl, by rw [d2]; rfl, ?_⟩
    rw [List.append_nil]
    exact d1
  | error m =>
    simp only [Res.bind_eq_ok, Res.pure_eq, Res.ok.injEq, Prod.mk.injEq] at e
    obtain ⟨w1, e1, rfl, rfl⟩ := e
    rw [if_pos trivial] at e1
    refine ⟨u1, u3, u4, fun jobs I P Q hj => ?_⟩
    obtain ⟨es, is, a1, a2, a3⟩ := solo_commit e1 hb (jobs := jobs) (p := P.length) (hj 0 _ rfl) (I := I) (get_at P Q (.ready s.silo.no))
    rw [set_at] at a3
    exact ⟨es, is, a1, a2, a3⟩

theorem does_parts {σ : Type} {env : Env} {D : Deflater σ} {fuel : Nat} {w w1 w2 w' : World} {h : Hdr} {ident : Option Bytes} {sj sj1 sj2 : Segjob.Job σ}
    {cs : List Bytes} (e0 : segjobNew env h ident = .ok sj) (e1 : feedAll env D fuel cs w sj = .ok (w1, sj1)) (e2 : Segjob.feedLoop env D fuel w1 sj1 [] = .ok (w2, sj2))
    (a1 : JobInv env D w2 sj2) (a2 : sj2.payload = cs.flatten) (a5 : sj2.cur = none) {L : List Commit.Job} (l1 : JobsOf sj2.segs (decide (1 < sj2.segs.length)) L)
    (l2 : ∀ (jobs : Nat → Commit.Job) (I : List Commit.Entry) (P Q : List Pc), JobsAre jobs P L →
      ∃ es is, SameEntries es is ∧ insertAll w2.dir is = .ok w'.dir ∧
        Solo env.max jobs P.length (P.length + sj2.segs.length) ⟨w2.silos, w2.holds, I, P ++ (sj2.segs.map (fun s => Pc.ready s.silo.no) ++ Q)⟩
          ⟨w'.silos, w'.holds, I ++ es, P ++ (List.replicate sj2.segs.length .done ++ Q)⟩) :
    (sj2.segs.map (·.content)).flatten = cs.flatten ∧ PiecesOf (sj2.segs.map (·.content)) L ∧ Does env w w' L := by
  have hpay := a1.payload
  rw [a5] at hpay
  simp only [curContent, Option.map_none, Option.getD_none, List.append_nil] at hpay
  have hlen : L.length = sj2.segs.length := by simpa using congrArg List.length l1
  obtain ⟨n1, b1, b2⟩ := feedAll_feeds _ e1
  obtain ⟨n2, c1, c2⟩ := feedLoop_feeds _ e2
  have h0 : nos sj = [] := by
    unfold segjobNew at e0
    simp only [Res.bind_eq_ok, Res.check_eq_ok, exists_const, Res.pure_eq, Res.ok.injEq] at e0
    obtain ⟨-, -, -, rfl⟩ := e0
    rfl
  have hf := b2.trans c2
  have hnos : n1 ++ n2 = sj2.segs.map (·.silo.no) := by
    rw [b1, h0, List.nil_append] at c1
    rw [← c1]
    unfold nos
    rw [a5]
    simp [curNo]
  rw [hnos] at hf
  obtain ⟨g1, g2, g3⟩ := hf
  refine ⟨?_, ⟨by simpa using hlen, ?_⟩, ?_⟩
  · rw [← a2, hpay, List.flatMap_def]
  · intro k j x hk hx
    rw [List.getElem?_map, Option.map_eq_some_iff] at hx
    obtain ⟨s, hx, rfl⟩ := hx
    have hk' := congrArg (fun l => l[k]?) l1
    simp only [List.getElem?_map, hk, hx, Option.map_some, Option.some.injEq, Prod.mk.injEq] at hk'
    refine ⟨by rw [hk'.2, List.length_map], ?_⟩
    obtain ⟨b, hd⟩ := segsDone_mem _ a1.segs s (List.mem_of_getElem? hx)
    obtain ⟨h0, gz, hb, -, hm, -⟩ := hd.state
    obtain ⟨ih, info, res, -, -, i1, i2, i3⟩ := hb.hold
    refine ⟨gz, ?_, hm⟩
    rw [hk'.1]
    unfold Sl.tail
    rw [i3, List.drop_left' (by rw [List.length_append, i1, i2])]
  · intro jobs I P Q hj
    obtain ⟨es, is, k1, k2, k3⟩ := l2 jobs I P Q hj
    rw [g1] at k3
    rw [g2] at k2
    refine ⟨es, is, k1, k2, ?_⟩
    have s1 := g3 env.max jobs I P Q
    simp only [List.length_map, List.map_map] at s1
    rw [hlen]
    exact s1.trans k3

/-- C89: what `store` does for an object of one piece when it is alone (C85) is done by one process, and that process stores the
object in the sense of the theorems above. -/
theorem C89_store {σ : Type} {env : Env} {D : Deflater σ} (hz : Zlib D) (he : EnvOk env) {fuel : Nat} {w w' : World} {h : Hdr} (hj : GoodJob env h)
    {ident : Option Bytes} {cs : List Bytes} (hc : GoodInput env cs) {uri : Bytes} (e : storeObj env D fuel w h ident cs = .ok (w', uri)) :
    ∃ parts L, parts.flatten = cs.flatten ∧ PiecesOf parts L ∧ Does env w w' L ∧
      (parts.length = 1 → ∃ j k, L = [j] ∧ StoresOk env j k ∧ k.own.data = cs.flatten ∧ uri = env.pfx ++ k.id ∧ (∀ c ∈ k.id, isHex c = true) ∧
        k.id.length = env.idSize ∧ (k.flags = 0 ∨ k.flags = F_METADATA ∨ k.flags = F_RESOURCE) ∧ k.cont = none) := by
  unfold storeObj segjobCommit at e
  simp only [Res.bind_eq_ok] at e
  obtain ⟨sj, e0, ⟨w1, sj1⟩, e1, ⟨w2, sj2⟩, e2, e3⟩ := e
  simp only at e2 e3
  obtain ⟨a1, a2, a3, -, a5, -⟩ := fed_inv hz he.max hc.1 hc.2.1 e0 e1 e2
  have hs := segs_bounded _ a1.segs
  by_cases hone : ∃ s, sj2.segs = [s]
  · obtain ⟨s, hseg⟩ := hone
    obtain ⟨o1, o2, o3, o4⟩ := solo_commitJob_one hseg (hs s (by rw [hseg]; simp)).1 e3
    obtain ⟨d1, d2, d3⟩ := does_parts (L := [soloJob env s.silo false]) e0 e1 e2 a1 a2 a5 (by rw [hseg]; rfl) (by rw [hseg]; exact o4)
    refine ⟨_, _, d1, d2, d3, fun _ => ?_⟩
    have hpay := d1
    rw [hseg] at hpay
    simp only [List.map_cons, List.map_nil, List.flatten_cons, List.flatten_nil, List.append_nil] at hpay
    have hdone := a1.segs
    rw [hseg] at hdone
    obtain ⟨h1, hd, -⟩ := hdone
    have hj1 : JobHdr env.idSize sj2.hdr := by rw [a3]; exact hj.1
    have hj2 : Neat sj2.hdr := by rw [a3]; exact hj.2.1
    have hj3 : Short env sj2.hdr := by rw [a3]; exact hj.2.2
    obtain ⟨_, _, hb, -⟩ := hd.state
    have hsz := hc.2.2
    rw [← hpay] at hsz
    have hz2 := hb.size
    obtain ⟨file, hfile⟩ := single_fits he hj1 hj2 hj3 hd h1 (by omega)
    have hr := (done_segR he hj1 hj2 hj3 hd (by omega) (by omega) o2).ready s.hdr (done_neat he hj2 hd).1 o2
    rw [← hd.hd] at hr
    have htext : (headerSerialize env.pfx s.silo.hd).length + 84 ≤ env.ps := by
      obtain ⟨h0, gz, hb0, -, -, ff⟩ := hd.state
      have e0 := hb0.hdr0
      have hl0 := seg0_len he hj2 (by omega) e0
      rw [h1] at e0
      obtain ⟨s0, i0, g1, g2, g3⟩ := seg0_first hj1.sorted e0
      obtain ⟨-, -, l1, -⟩ := finishHdr_inv s0 g1 g2 (by rw [(he.sha _).1, (he.sha _).1]) (by rw [i0, hj1.id]) ff
      have := dec_length s.size 18 (by omega)
      unfold Short at hj3
      rw [hd.hd]
      omega
    obtain ⟨k, k1, k2, k3, k4, k5, -⟩ := C89_ready he hr hfile htext false s.silo.idx none
    have hid : s.silo.hd.id = s.hdr.id := by rw [hd.hd]
    rw [hid] at k3
    exact ⟨_, k, rfl, k1, by rw [k2, hpay], by rw [k3]; exact o1, by rw [k3]; exact o2, by rw [k3]; exact o3, by rw [k4]; exact hr.flags, k5⟩
  · obtain ⟨L, l1, l2⟩ := solo_commitJob (fun s h => (hs s h).1) e3
    obtain ⟨d1, d2, d3⟩ := does_parts e0 e1 e2 a1 a2 a5 l1 l2
    refine ⟨_, L, d1, d2, d3, fun h => absurd ?_ hone⟩
    rw [List.length_map] at h
    exact List.length_eq_one_iff.1 h

/-! ### Examples -/

def concRec (h : Hdr) (d : Bytes) : Rec := storedRec (headerSerialize b!"x/" h) d
def concInfo : Hdr := exHdr b!"cccccccccccccccccccccccc" [(b!"Content-Length", b!"1"), (b!"WARC-Type", b!"warcinfo")]

/-- The object "ab", as two processes store it at the same time. -/
def concStores : Storing :=
  { own := concRec exX b!"ab", ownHdr := exX, app := concRec exX b!"ab", appHdr := exX, info := fun _ => concRec concInfo b!"i",
    infoHdr := fun _ => concInfo, id := exX.id, flags := 4, cont := none }

def concJob : Commit.Job :=
  { info := fun _ => (concRec concInfo b!"i").bytes, hdr := (concRec exX b!"ab").hgz, hdrz := (concRec exX b!"ab").hgz,
    body := (concRec exX b!"ab").bgz ++ separator, segd := false }

set_option maxRecDepth 1000000 in
theorem concStores_ok : StoresOk (Example.env 100000) concJob concStores where
  own := by show _ ++ _ ++ _ = _ ++ (_ ++ _); rw [List.append_assoc]; rfl
  ownOk := ⟨storedRec_complete (by decide +kernel) (by decide +kernel) (by decide +kernel) (by decide +kernel), by decide +kernel, by decide +kernel⟩
  ownId := rfl
  app := by show _ ++ _ ++ _ = _ ++ (_ ++ _); rw [List.append_assoc]; rfl
  appOk := ⟨storedRec_complete (by decide +kernel) (by decide +kernel) (by decide +kernel) (by decide +kernel), by decide +kernel, by decide +kernel⟩
  appId := rfl
  same := rfl
  info _ := rfl
  infoOk n := by
    show (concRec concInfo b!"i").Complete b!"x/" concInfo ∧ (concRec concInfo b!"i").Fits 4096
    exact ⟨storedRec_complete (by decide +kernel) (by decide +kernel) (by decide +kernel) (by decide +kernel), by decide +kernel, by decide +kernel⟩

/-- Both processes make their hold files, and neither finds the object in the index. -/
def concBegin : List Act := [.create 0 0, .go 0, .go 0, .create 1 1, .go 1, .go 1, .giveUp 1, .giveUp 0]

/-- Both install their silos. -/
def concBoth : List Act := concBegin ++ [.go 1, .go 0, .go 0, .go 1, .go 0, .go 1, .go 1, .go 0]

/-- Process 1 is between `IDX_Insert` and `link` when process 0 has come to its end. -/
def concOne : List Act := concBegin ++ [.go 1, .go 0, .go 0, .go 0, .go 0]

def concEnd (as : List Act) : St := (Commit.run 100000 (fun _ => concJob) (Commit.init 2) as).getD (Commit.init 0)

/-- The archive directory. -/
def concWorld (as : List Act) : World :=
  { dir := (runOps {} ((concEnd as).idx.map fun e => .insert (concStores.ins e))).toOption.getD {}, silos := (concEnd as).silos,
    holds := (concEnd as).holds, cache := ⟨0, 0⟩, cacheFile := none }

theorem concBoth_run : Commit.run 100000 (fun _ => concJob) (Commit.init 2) concBoth = some (concEnd concBoth) := rfl
theorem concBoth_idx : (concEnd concBoth).idx = [⟨1, .obj, 1, (concJob.info 1).length⟩, ⟨0, .obj, 0, (concJob.info 0).length⟩, ⟨0, .info, 0, 0⟩, ⟨1, .info, 1, 0⟩] ∧
    (concEnd concBoth).procs = [.done, .done] := ⟨rfl, rfl⟩

set_option maxRecDepth 1000000 in
theorem concWorld_dir : runOps {} ((concEnd concBoth).idx.map fun e => .insert (concStores.ins e)) = .ok (concWorld concBoth).dir ∧
    (concWorld concBoth).dir.sorted = none := by
  decide +kernel

set_option maxRecDepth 1000000 in
theorem concValid : ∀ o ∈ (concEnd concBoth).idx.map fun e => IdxOp.insert (concStores.ins e), o.Valid := by
  rw [concBoth_idx.1]
  intro o ho
  simp only [List.map_cons, List.map_nil, List.mem_cons, List.not_mem_nil, or_false] at ho
  rcases ho with rfl | rfl | rfl | rfl <;>
    exact ⟨by decide +kernel, by decide +kernel, by decide +kernel, by decide +kernel, fun k hk => by cases hk⟩

theorem concAfter : AfterRun (Example.env 100000) (fun _ => concJob) (fun _ => concStores) emptyWorld (concWorld concBoth) [] [] (Commit.init 2) (concEnd concBoth) where
  before := ⟨rfl, fun o ho => (by cases ho), rfl, fun x hx => (by cases hx), fun x hx => (by cases hx)⟩
  start := start_init 2
  silos := rfl
  silos' := rfl
  index := ⟨_, concWorld_dir.1, concValid, by rw [concBoth_idx.1]; rfl⟩
  few := by unfold recordsOf; rw [concBoth_idx.1]; decide
  stores _ := concStores_ok

/-- The object is in the archive twice, and getting it works. -/
example : ∃ gj, getjobNew 4096 b!"x/" 24 1 (concWorld concBoth) exX.id = .ok (.job gj) ∧
    getjobIterate 4096 (fun b => [b]) gj collect [] false = .ok b!"ab" := by
  obtain ⟨gj, h1, h2⟩ := C89_get_partial (example_envOk 100000 (by decide)) concAfter concBoth concBoth_run (p := 0) (by rw [concBoth_idx.2]; rfl) (by decide)
    (show ∀ c ∈ exX.id, isHex c = true by decide) rfl
    (by
      intro e he _
      rw [concBoth_idx.1] at he
      rw [concBoth_idx.2]
      simp only [List.mem_cons, List.not_mem_nil, or_false] at he
      rcases he with rfl | rfl | rfl | rfl <;> exact .inr rfl)
    (by
      unfold recordsOf
      rw [concBoth_idx.1]
      intro x hx
      simp only [List.nil_append, List.map_cons, List.map_nil, List.mem_cons, List.not_mem_nil, or_false] at hx
      rcases hx with rfl | rfl | rfl | rfl <;> intro hm _
      · exact ⟨⟨by decide, by decide, by decide, by decide, by decide⟩, rfl⟩
      · exact ⟨⟨by decide, by decide, by decide, by decide, by decide⟩, rfl⟩
      · exact absurd hm (by decide)
      · exact absurd hm (by decide))
    (by intro F hF; rw [concWorld_dir.2] at hF; cases hF) (q := exX.id) (by decide) 0
  exact ⟨gj, h1, h2 (fun b => [b]) (by simp)⟩

set_option maxRecDepth 1000000 in
/-- C89 is false without the condition on the others: process 0 has come to its end, but as long as process 1 has its index entry
for the same object and not its silo, getting the object ends in an assertion failure. -/
theorem C89_counterexample_pending : (concEnd concOne).procs = [.done, .install 1] ∧ (∀ a ∈ concOne, ∀ p, a ≠ .crash p) ∧
    getjobNew 4096 b!"x/" 24 1 (concWorld concOne) exX.id = .fail := by
  refine ⟨rfl, ?_, by decide +kernel⟩
  intro a ha p h
  subst h
  revert ha
  unfold concOne concBegin
  simp

end Verif.Props
