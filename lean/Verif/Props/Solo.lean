/-
C85: a store that nobody disturbs is a run of the processes of which Model/Commit.lean shows every interleaving.
-/
import Verif.Proofs.Solo
import Verif.Proofs.ExampleZ

namespace Verif.Props
open Verif Header Gzip Ident Index Wsilo Segjob Getjob Spec Cache Inflate
open _root_.Verif.Commit (upd Silo Act Pc St setPc)

/-! ### Feeding: the hold files are made -/

/-- The hold files `new` are made, each by a process that was idle, and nothing else happens to the files. -/
def Feeds (w w' : World) (new : List Nat) : Prop :=
  w'.silos = w.silos ∧ w'.dir = w.dir ∧ ∀ (max : Nat) (jobs : Nat → Commit.Job) (I : List Commit.Entry) (P Q : List Pc),
    Solo max jobs P.length (P.length + new.length) ⟨w.silos, w.holds, I, P ++ (List.replicate new.length .idle ++ Q)⟩
      ⟨w.silos, w'.holds, I, P ++ (new.map .ready ++ Q)⟩

theorem Feeds.refl (w : World) : Feeds w w [] := ⟨rfl, rfl, fun _ _ _ _ _ => .refl _⟩

theorem Feeds.trans {w w1 w2 : World} {a b : List Nat} (h1 : Feeds w w1 a) (h2 : Feeds w1 w2 b) : Feeds w w2 (a ++ b) := by
  obtain ⟨a1, a2, a3⟩ := h1
  obtain ⟨b1, b2, b3⟩ := h2
  refine ⟨by rw [b1, a1], by rw [b2, a2], fun max jobs I P Q => ?_⟩
  have s1 := a3 max jobs I P (List.replicate b.length .idle ++ Q)
  have s2 := b3 max jobs I (P ++ a.map .ready) Q
  rw [a1] at s2
  simp only [List.length_append, List.length_map, List.append_assoc] at s2
  simp only [List.length_append, ← List.replicate_append_replicate, List.map_append, List.append_assoc]
  exact (s1.mono (Nat.le_refl _) (by omega)).trans (s2.mono (by omega) (by omega))

theorem set_at (P Q : List Pc) (x y : Pc) : (P ++ x :: Q).set P.length y = P ++ y :: Q := by simp

theorem get_at (P Q : List Pc) (x : Pc) : (P ++ x :: Q)[P.length]? = some x := by simp

theorem curSeg_feeds {σ : Type} {env : Env} {fuel : Nat} {D : Deflater σ} {w w' : World} {sj : Job σ} {c : Cur σ} (h : curSeg env fuel D w sj = .ok (w', c)) :
    ∃ new, sj.segs.map (·.silo.no) ++ [c.seg.silo.no] = nos sj ++ new ∧ Feeds w w' new := by
  unfold curSeg at h
  cases hc : sj.cur with
  | some c1 =>
    rw [hc] at h
    cases h
    exact ⟨[], by simp [nos, curNo, hc], .refl _⟩
  | none =>
    rw [hc] at h
    obtain ⟨-, -, -, -, -, -, -, j7, j8, j9, -⟩ := newseg_inv h
    refine ⟨[c.seg.silo.no], by simp [nos, curNo, hc], by rw [j7], by rw [j7], fun max jobs I P Q => ?_⟩
    have := solo_create (max := max) (jobs := jobs) (S := w.silos) (H := w.holds) (I := I) (get_at P Q .idle) 1 (n := c.seg.silo.no) (m := c.seg.silo.no)
      (by simp [wsiloNext, j8, j9])
    rw [set_at] at this
    rw [j7]
    exact this

theorem feedLoop_feeds {σ : Type} {env : Env} {D : Deflater σ} (fuel : Nat) : ∀ {w w' : World} {sj sj' : Job σ} {ip : Bytes},
    feedLoop env D fuel w sj ip = .ok (w', sj') → ∃ new, nos sj' = nos sj ++ new ∧ Feeds w w' new := by
  induction fuel with
  | zero => intro w w' sj sj' ip h; cases h
  | succ fuel ih =>
    intro w w' sj sj' ip h
    rw [Segjob.feedLoop] at h
    simp only [Res.bind_eq_ok] at h
    obtain ⟨⟨w1, c⟩, h1, space, h2, h3⟩ := h
    obtain ⟨new, c1, c2⟩ := curSeg_feeds h1
    simp only at h3
    have next : ∀ {w2 : World} {sj1 sj2 : Job σ} {ip : Bytes}, nos sj1 = sj.segs.map (·.silo.no) ++ [c.seg.silo.no] → feedLoop env D fuel w1 sj1 ip = .ok (w2, sj2) →
        ∃ new, nos sj2 = nos sj ++ new ∧ Feeds w w2 new := by
      intro w2 sj1 sj2 ip hn e
      obtain ⟨new2, a1, a2⟩ := ih e
      exact ⟨new ++ new2, by rw [a1, hn, c1, List.append_assoc], c2.trans a2⟩
    split at h3
    · simp only [Res.bind_eq_ok] at h3
      obtain ⟨s, h4, h5⟩ := h3
      have d5 := endSeg_no h4
      have hn : nos { sj with segs := sj.segs ++ [s], cur := (none : Option (Cur σ)) } = sj.segs.map (·.silo.no) ++ [c.seg.silo.no] := by
        simp [nos, curNo, d5]
      split at h5
      · simp only [Res.pure_eq, Res.ok.injEq, Prod.mk.injEq] at h5
        obtain ⟨rfl, rfl⟩ := h5
        exact ⟨new, by rw [hn, c1], c2⟩
      · exact next hn h5
    · simp only [Res.bind_eq_ok] at h3
      obtain ⟨m, h4, z, h5, h6⟩ := h3
      obtain ⟨m1, m2⟩ := moreInput_no h4
      obtain ⟨-, -, z3⟩ := runDeflate_inv h5
      have hno : z.1.seg.silo.no = c.seg.silo.no := by rw [z3]; simp only [m1]
      have hn : nos { m.1 with cur := some z.1 } = sj.segs.map (·.silo.no) ++ [c.seg.silo.no] := by
        simp [nos, curNo, hno, m2]
      split at h6
      · exact next hn h6
      · simp only [Res.pure_eq, Res.ok.injEq, Prod.mk.injEq] at h6
        obtain ⟨rfl, rfl⟩ := h6
        exact ⟨new, by rw [hn, c1], c2⟩

theorem feedAll_feeds {σ : Type} {env : Env} {D : Deflater σ} {fuel : Nat} (cs : List Bytes) : ∀ {w w' : World} {sj sj' : Job σ},
    feedAll env D fuel cs w sj = .ok (w', sj') → ∃ new, nos sj' = nos sj ++ new ∧ Feeds w w' new := by
  induction cs with
  | nil => intro w w' sj sj' h; cases h; exact ⟨[], by simp, .refl _⟩
  | cons c cs ih =>
    intro w w' sj sj' h
    rw [feedAll] at h
    simp only [Res.bind_eq_ok] at h
    obtain ⟨⟨w1, sj1⟩, h1, h2⟩ := h
    obtain ⟨n1, a1, a2⟩ := feedLoop_feeds _ h1
    obtain ⟨n2, b1, b2⟩ := ih h2
    exact ⟨n1 ++ n2, by rw [b1, a1, List.append_assoc], a2.trans b2⟩

/-! ### The end of a job -/

/-- The processes from the end of `P` on have the jobs `L`. -/
def JobsAre (jobs : Nat → Commit.Job) (P : List Pc) (L : List Commit.Job) : Prop := ∀ (k : Nat) (j : Commit.Job), L[k]? = some j → jobs (P.length + k) = j

/-- All of the object is in the archive already: the hold files go away. -/
theorem solo_destroy {max : Nat} {jobs : Nat → Commit.Job} (ss : List Seg) : ∀ {w : World} {I : List Commit.Entry} {P Q : List Pc},
    Solo max jobs P.length (P.length + ss.length) ⟨w.silos, w.holds, I, P ++ (ss.map (fun s => Pc.ready s.silo.no) ++ Q)⟩
      ⟨(destroy w ss).silos, (destroy w ss).holds, I, P ++ (List.replicate ss.length .done ++ Q)⟩ ∧ (destroy w ss).dir = w.dir := by
  induction ss with
  | nil => intro w I P Q; exact ⟨.refl _, rfl⟩
  | cons s ss ih =>
    intro w I P Q
    obtain ⟨a1, a2⟩ := ih (w := abandon w s.silo) (I := I) (P := P ++ [.done]) (Q := Q)
    refine ⟨?_, a2⟩
    have hp := get_at P (ss.map (fun s => Pc.ready s.silo.no) ++ Q) (.ready s.silo.no)
    have s1 : Solo max jobs P.length (P.length + 1) ⟨w.silos, w.holds, I, P ++ .ready s.silo.no :: (ss.map (fun s => Pc.ready s.silo.no) ++ Q)⟩
        ⟨w.silos, w.holds, I, P ++ .del s.silo.no :: (ss.map (fun s => Pc.ready s.silo.no) ++ Q)⟩ :=
      .step (a := .drop P.length) ⟨Nat.le_refl _, Nat.lt_succ_self _⟩ (by
        simp only [Commit.step, hp, Option.bind_some, Commit.stepDrop, setPc, set_at])
    have s2 : Solo max jobs P.length (P.length + 1) ⟨w.silos, w.holds, I, P ++ .del s.silo.no :: (ss.map (fun s => Pc.ready s.silo.no) ++ Q)⟩
        ⟨(abandon w s.silo).silos, (abandon w s.silo).holds, I, P ++ .done :: (ss.map (fun s => Pc.ready s.silo.no) ++ Q)⟩ :=
      solo_go (get_at P _ _) (by simp only [Commit.stepGo, setPc, set_at, abandon])
    simp only [List.length_append, List.length_cons, List.length_nil, List.append_assoc, List.cons_append, List.nil_append] at a1
    refine .trans ((s1.trans s2).mono (Nat.le_refl _) (by simp)) (a1.mono (by omega) ?_)
    simp only [List.length_cons]
    omega

/-- What is known of the jobs: what they append to a silo, and whether they are segments. -/
def JobsOf (ss : List Seg) (segd : Bool) (L : List Commit.Job) : Prop := L.map (fun j => (j.body, j.segd)) = ss.map fun s => (s.silo.tail, segd)

theorem solo_commitSegs {env : Env} {fid : Bytes} {size : Nat} (ss : List Seg) : ∀ {w w' : World},
    (∀ s ∈ ss, s.silo.hdStart + s.silo.hdLen ≤ s.silo.hold.length) → commitSegs env fid size ss w = .ok w' →
    ∃ L : List Commit.Job, JobsOf ss true L ∧ ∀ (jobs : Nat → Commit.Job) (I : List Commit.Entry) (P Q : List Pc), JobsAre jobs P L →
      ∃ es is, SameEntries es is ∧ insertAll w.dir is = .ok w'.dir ∧
        Solo env.max jobs P.length (P.length + ss.length) ⟨w.silos, w.holds, I, P ++ (ss.map (fun s => Pc.ready s.silo.no) ++ Q)⟩
          ⟨w'.silos, w'.holds, I ++ es, P ++ (List.replicate ss.length .done ++ Q)⟩ := by
  induction ss with
  | nil =>
    intro w w' _ e
    cases e
    refine ⟨[], rfl, fun jobs I P Q _ => ⟨[], [], rfl, rfl, ?_⟩⟩
    rw [List.append_nil]
    exact .refl _
  | cons s ss ih =>
    intro w w' hs e
    unfold commitSegs at e
    simp only [Res.bind_eq_ok] at e
    obtain ⟨h, -, h', -, w1, e1, e2⟩ := e
    obtain ⟨L, l1, l2⟩ := ih (fun t ht => hs t (List.mem_cons_of_mem _ ht)) e2
    refine ⟨soloJob env { s.silo with hd := h' } true :: L, ?_, fun jobs I P Q hj => ?_⟩
    · unfold JobsOf at *
      rw [List.map_cons, List.map_cons, l1]
      rfl
    have hp := get_at P (ss.map (fun s => Pc.ready s.silo.no) ++ Q) (.ready s.silo.no)
    obtain ⟨es, is, a1, a2, a3⟩ := solo_commit (sl := { s.silo with hd := h' }) e1 (hs s (by simp)) (jobs := jobs) (p := P.length) (hj 0 _ rfl) (I := I) hp
    rw [set_at] at a3
    obtain ⟨fs, js, b1, b2, b3⟩ := l2 jobs (I ++ es) (P ++ [.done]) Q (by
      intro k j hk
      have := hj (k + 1) j (by simpa using hk)
      rw [← this, List.length_append, List.length_singleton]
      congr 1
      omega)
    refine ⟨es ++ fs, is ++ js, a1.append b1, insertAll_append _ _ a2 b2, ?_⟩
    simp only [List.length_append, List.length_cons, List.length_nil, List.append_assoc, List.cons_append, List.nil_append] at b3
    refine .trans (a3.mono (Nat.le_refl _) (by simp)) (b3.mono (by omega) ?_)
    simp only [List.length_cons]
    omega

/-- The processes `L` do the job: they are started and come to their ends, nobody else does anything, the files are what the
sequential program makes of them, and so are the index entries, in the same order. -/
def Does (env : Env) (w w' : World) (L : List Commit.Job) : Prop :=
  ∀ (jobs : Nat → Commit.Job) (I : List Commit.Entry) (P Q : List Pc), JobsAre jobs P L →
    ∃ es is, SameEntries es is ∧ insertAll w.dir is = .ok w'.dir ∧
      Solo env.max jobs P.length (P.length + L.length) ⟨w.silos, w.holds, I, P ++ (List.replicate L.length .idle ++ Q)⟩
        ⟨w'.silos, w'.holds, I ++ es, P ++ (List.replicate L.length .done ++ Q)⟩

theorem firstId_silo {env : Env} {ident : Option Bytes} {payload : Bytes} {s t : Seg} (h : firstId env ident payload s = .ok t) :
    t.content = s.content ∧ t.silo = { s.silo with hd := t.silo.hd } := by
  unfold firstId at h
  simp only [Res.bind_eq_ok, Res.pure_eq, Res.ok.injEq] at h
  obtain ⟨_, -, _, -, rfl⟩ := h
  exact ⟨rfl, rfl⟩

/-- `SegJob_Commit` with all segments at hand. -/
theorem solo_commitJob {σ : Type} {env : Env} {fuel : Nat} {w w' : World} {sj : Job σ} {uri : Bytes}
    (hs : ∀ s ∈ sj.segs, s.silo.hdStart + s.silo.hdLen ≤ s.silo.hold.length) (e : commitJob env fuel w sj = .ok (w', uri)) :
    ∃ (L : List Commit.Job), JobsOf sj.segs (decide (1 < sj.segs.length)) L ∧ ∀ (jobs : Nat → Commit.Job) (I : List Commit.Entry) (P Q : List Pc), JobsAre jobs P L →
      ∃ es is, SameEntries es is ∧ insertAll w.dir is = .ok w'.dir ∧
        Solo env.max jobs P.length (P.length + sj.segs.length) ⟨w.silos, w.holds, I, P ++ (sj.segs.map (fun s => Pc.ready s.silo.no) ++ Q)⟩
          ⟨w'.silos, w'.holds, I ++ es, P ++ (List.replicate sj.segs.length .done ++ Q)⟩ := by
  unfold commitJob at e
  rw [Res.bind_eq_ok] at e
  obtain ⟨-, -, e⟩ := e
  cases hss : sj.segs with
  | nil => rw [hss] at e; cases e
  | cons s ss =>
    rw [hss] at e hs
    simp only [Res.bind_eq_ok] at e
    obtain ⟨s', f1, id, -, g, -, e⟩ := e
    have hsilo : s'.silo = { s.silo with hd := s'.silo.hd } := by
      split at f1
      · cases f1; rfl
      · exact (firstId_silo f1).2
    have hno : s'.silo.no = s.silo.no := by rw [hsilo]
    have htail : s'.silo.tail = s.silo.tail := by rw [hsilo]; rfl
    have hmap : (s' :: ss).map (fun s => Pc.ready s.silo.no) = (s :: ss).map (fun s => Pc.ready s.silo.no) := by
      rw [List.map_cons, List.map_cons, hno]
    have hb' : s'.silo.hdStart + s'.silo.hdLen ≤ s'.silo.hold.length := by rw [hsilo]; exact hs s (by simp)
    cases g with
    | job g =>
      simp only [Res.pure_eq, Res.ok.injEq, Prod.mk.injEq] at e
      obtain ⟨rfl, -⟩ := e
      refine ⟨(s :: ss).map fun t => soloJob env t.silo (decide (1 < (s :: ss).length)), ?_, fun jobs I P Q _ => ⟨[], [], rfl, ?_, ?_⟩⟩
      · unfold JobsOf
        rw [List.map_map]
        rfl
      · rw [(solo_destroy (max := env.max) (jobs := jobs) (s' :: ss) (w := w) (I := I) (P := P) (Q := Q)).2]
        rfl
      · have := (solo_destroy (max := env.max) (jobs := jobs) (s' :: ss) (w := w) (I := I) (P := P) (Q := Q)).1
        rw [hmap] at this
        rw [List.append_nil]
        exact this
    | error m =>
      simp only [Res.bind_eq_ok, Res.pure_eq, Res.ok.injEq, Prod.mk.injEq] at e
      obtain ⟨w1, e1, rfl, -⟩ := e
      by_cases hnil : ss = []
      · subst hnil
        rw [if_pos rfl] at e1
        refine ⟨[soloJob env s'.silo false], ?_, fun jobs I P Q hj => ?_⟩
        · unfold JobsOf
          simp only [List.map_cons, List.map_nil, soloJob, htail, List.length_singleton, Nat.lt_irrefl, decide_false]
        · obtain ⟨es, is, a1, a2, a3⟩ := solo_commit e1 hb' (jobs := jobs) (p := P.length) (hj 0 _ rfl) (I := I) (get_at P Q (.ready s'.silo.no))
          rw [set_at, hno] at a3
          exact ⟨es, is, a1, a2, a3⟩
      · rw [if_neg hnil] at e1
        obtain ⟨L, l1, l2⟩ := solo_commitSegs (s' :: ss) (fun t ht => by
          rcases List.mem_cons.1 ht with rfl | ht
          · exact hb'
          · exact hs t (List.mem_cons_of_mem _ ht)) e1
        rw [hmap] at l2
        refine ⟨L, ?_, l2⟩
        have hd : decide (1 < (s :: ss).length) = true := by
          rw [decide_eq_true_eq, List.length_cons]
          have := List.length_pos_iff.2 hnil
          omega
        rw [hd]
        unfold JobsOf at *
        rw [l1, List.map_cons, List.map_cons, htail]

/-- The pieces of an object, and the processes that store them: each writes one piece as one gzip member
with the separator behind it, and knows that it is a
segment if there are several. -/
def PiecesOf (parts : List Bytes) (L : List Commit.Job) : Prop :=
  L.length = parts.length ∧ ∀ (k : Nat) (j : Commit.Job) (x : Bytes), L[k]? = some j → parts[k]? = some x →
    j.segd = decide (1 < parts.length) ∧ ∃ gz, j.body = gz ++ crnlcrnl ∧ Member gz x

/-- C85: whatever `store` is given and whatever is in the archive, what it does when nobody else does anything is what the
processes of Model/Commit.lean can do, one process for each piece of the object. -/
theorem C85_store {σ : Type} {env : Env} {D : Deflater σ} (hz : Zlib D) (hmax : env.max < 2 ^ 63) {fuel : Nat} {w w' : World} {h : Hdr}
    {ident : Option Bytes} {cs : List Bytes} (hc : GoodInput env cs) {uri : Bytes} (e : storeObj env D fuel w h ident cs = .ok (w', uri)) :
    ∃ parts L, parts.flatten = cs.flatten ∧ PiecesOf parts L ∧ Does env w w' L := by
  unfold storeObj segjobCommit at e
  simp only [Res.bind_eq_ok] at e
  obtain ⟨sj, e0, ⟨w1, sj1⟩, e1, ⟨w2, sj2⟩, e2, e3⟩ := e
  simp only at e2 e3
  obtain ⟨a1, a2, -, -, a5, -⟩ := fed_inv hz hmax hc.1 hc.2.1 e0 e1 e2
  have hpay := a1.payload
  rw [a5] at hpay
  simp only [curContent, Option.map_none, Option.getD_none, List.append_nil] at hpay
  have hs := segs_bounded _ a1.segs
  obtain ⟨L, l1, l2⟩ := solo_commitJob (fun s h => (hs s h).1) e3
  have hlen : L.length = sj2.segs.length := by simpa using congrArg List.length l1
  obtain ⟨n1, b1, b2⟩ := feedAll_feeds _ e1
  obtain ⟨n2, c1, c2⟩ := feedLoop_feeds _ e2
  have h0 : nos sj = [] := by
    unfold segjobNew at e0
    simp only [Res.bind_eq_ok, Res.check_eq_ok, exists_const, Res.pure_eq, Res.ok.injEq] at e0
    obtain ⟨-, -, -, rfl⟩ := e0
    rfl
  have hf := b2.trans c2
  have hnos : n1 ++ n2 = sj2.segs.map (·.silo.no) := by
    rw [b1, h0, List.nil_append] at c1
    rw [← c1]
    unfold nos
    rw [a5]
    simp [curNo]
  rw [hnos] at hf
  obtain ⟨g1, g2, g3⟩ := hf
  refine ⟨sj2.segs.map (·.content), L, ?_, ⟨by simpa using hlen, ?_⟩, ?_⟩
  · rw [← a2, hpay, List.flatMap_def]
  · intro k j x hk hx
    rw [List.getElem?_map, Option.map_eq_some_iff] at hx
    obtain ⟨s, hx, rfl⟩ := hx
    have hk' := congrArg (fun l => l[k]?) l1
    simp only [List.getElem?_map, hk, hx, Option.map_some, Option.some.injEq, Prod.mk.injEq] at hk'
    refine ⟨by rw [hk'.2, List.length_map], ?_⟩
    obtain ⟨b, hd⟩ := segsDone_mem _ a1.segs s (List.mem_of_getElem? hx)
    obtain ⟨h0, gz, hb, -, hm, -⟩ := hd.state
    obtain ⟨ih, info, res, -, -, i1, i2, i3⟩ := hb.hold
    refine ⟨gz, ?_, hm⟩
    rw [hk'.1]
    unfold Sl.tail
    rw [i3, List.drop_left' (by rw [List.length_append, i1, i2])]
  · intro jobs I P Q hj
    obtain ⟨es, is, k1, k2, k3⟩ := l2 jobs I P Q hj
    rw [g1] at k3
    rw [g2] at k2
    refine ⟨es, is, k1, k2, ?_⟩
    have s1 := g3 env.max jobs I P Q
    simp only [List.length_map, List.map_map] at s1
    rw [hlen]
    exact s1.trans k3

/-- Objects stored one after the other. -/
def storeEach {σ : Type} (env : Env) (D : Deflater σ) (fuel : Nat) : World → List (Hdr × Option Bytes × List Bytes) → Res World
  | w, [] => .ok w
  | w, x :: xs => do
    let r ← storeObj env D fuel w x.1 x.2.1 x.2.2
    storeEach env D fuel r.1 xs

theorem Does.trans {env : Env} {w w1 w2 : World} {L M : List Commit.Job} (h1 : Does env w w1 L) (h2 : Does env w1 w2 M) : Does env w w2 (L ++ M) := by
  intro jobs I P Q hj
  obtain ⟨es, is, a1, a2, a3⟩ := h1 jobs I P (List.replicate M.length .idle ++ Q) (by
    intro k j hk
    refine hj k j ?_
    rw [List.getElem?_append_left (List.getElem?_eq_some_iff.1 hk).1]
    exact hk)
  obtain ⟨fs, js, b1, b2, b3⟩ := h2 jobs (I ++ es) (P ++ List.replicate L.length .done) Q (by
    intro k j hk
    have := hj (L.length + k) j (by rw [List.getElem?_append_right (by omega), Nat.add_sub_cancel_left]; exact hk)
    rw [← this, List.length_append, List.length_replicate, Nat.add_assoc])
  refine ⟨es ++ fs, is ++ js, a1.append b1, insertAll_append _ _ a2 b2, ?_⟩
  simp only [List.length_append, List.length_replicate, List.append_assoc] at b3
  simp only [List.length_append, ← List.replicate_append_replicate, List.append_assoc]
  exact (a3.mono (Nat.le_refl _) (by omega)).trans (b3.mono (by omega) (by omega))

/-- C85: the same for any number of objects stored one after the other. -/
theorem C85_history {σ : Type} {env : Env} {D : Deflater σ} (hz : Zlib D) (hmax : env.max < 2 ^ 63) {fuel : Nat} (xs : List (Hdr × Option Bytes × List Bytes)) :
    ∀ {w w' : World}, (∀ x ∈ xs, GoodInput env x.2.2) → storeEach env D fuel w xs = .ok w' → ∃ L, Does env w w' L := by
  induction xs with
  | nil =>
    intro w w' _ e
    cases e
    refine ⟨[], fun jobs I P Q _ => ⟨[], [], rfl, rfl, ?_⟩⟩
    rw [List.append_nil]
    exact .refl _
  | cons x xs ih =>
    intro w w' hx e
    rw [storeEach] at e
    simp only [Res.bind_eq_ok] at e
    obtain ⟨⟨w1, uri⟩, e1, e2⟩ := e
    obtain ⟨-, L, -, -, h1⟩ := C85_store hz hmax (hx x (by simp)) e1
    obtain ⟨M, h2⟩ := ih (fun y hy => hx y (List.mem_cons_of_mem _ hy)) e2
    exact ⟨L ++ M, h1.trans h2⟩

/-- C85: every archive that stores alone have made of nothing is one that the processes can make, starting with nothing, with no
process killed and nothing done by hand; all of them come to their ends, and their index entries are those in the index, each of
which points at its record, complete. -/
theorem C85_archive {σ : Type} {env : Env} {D : Deflater σ} (hz : Zlib D) (hmax : env.max < 2 ^ 63) {fuel : Nat} {xs : List (Hdr × Option Bytes × List Bytes)}
    {w : World} (hx : ∀ x ∈ xs, GoodInput env x.2.2) (e : storeEach env D fuel emptyWorld xs = .ok w) :
    ∃ (np : Nat) (jobs : Nat → Commit.Job) (as : List Act) (s : St) (is : List Ins), Commit.run env.max jobs (Commit.init np) as = some s ∧
      (∀ a ∈ as, ActBy 0 np a) ∧ s.silos = w.silos ∧ s.holds = w.holds ∧ (∀ pc ∈ s.procs, pc = .done) ∧
      SameEntries s.idx is ∧ insertAll {} is = .ok w.dir ∧ ∀ e ∈ s.idx, e.Points jobs s := by
  obtain ⟨L, h⟩ := C85_history hz hmax xs hx e
  have hj : JobsAre (fun p => L.getD p ⟨fun _ => [], [], [], [], false⟩) [] L := by
    intro k j hk
    simp [hk]
  obtain ⟨es, is, a1, a2, as, b1, b2⟩ := h _ [] [] [] hj
  simp only [List.nil_append, List.append_nil, List.length_nil, Nat.zero_add] at b1 b2
  refine ⟨L.length, _, as, _, is, b2, b1, rfl, rfl, fun pc h => (List.mem_replicate.1 h).2, a1, a2, ?_⟩
  intro e he
  rcases C29_entries_partial (start_init L.length) as b2 e he with h | ⟨-, h⟩
  · exact h
  · have hd : ∀ pc, (List.replicate L.length Pc.done)[e.proc]? = some pc → pc = .done := fun pc h => (List.mem_replicate.1 (List.mem_of_getElem? h)).2
    rcases h with h | h | h <;> cases hd _ h

/-! ### Example -/

/-- Two objects stored one after the other; the second one is appended to the first one's silo. -/
def soloWorld : Res World :=
  storeEach (Example.env 5000) Example.stored 10 emptyWorld [(Example.hdr, none, [b!"hello", b!" world"]), (Example.hdr, none, [b!"goodbye"])]

set_option maxRecDepth 1000000 in
theorem soloWorld_ok : (soloWorld >>= fun w => .ok ((w.silos 0).isSome, (w.silos 1).isSome, w.holds 0, w.holds 1)) = .ok (true, false, false, false) := by
  decide +kernel

example : ∃ w np jobs as s, soloWorld = .ok w ∧ Commit.run 5000 jobs (Commit.init np) as = some s ∧ s.silos = w.silos ∧ (s.silos 0).isSome = true ∧
    s.holds = w.holds ∧ (∀ e ∈ s.idx, e.Points jobs s) ∧ ∀ pc ∈ s.procs, pc = .done := by
  have h := soloWorld_ok
  rw [Res.bind_eq_ok] at h
  obtain ⟨w, h1, h2⟩ := h
  obtain ⟨np, jobs, as, s, is, a1, -, a3, a4, a5, -, -, a8⟩ := C85_archive Example.stored_zlib (by decide) (by
    intro x hx
    simp only [List.mem_cons, List.not_mem_nil, or_false] at hx
    rcases hx with rfl | rfl <;> exact ⟨by decide, by decide, by decide⟩) h1
  refine ⟨w, np, jobs, as, s, h1, a1, a3, ?_, a4, a8, a5⟩
  rw [a3]
  simp only [Res.ok.injEq, Prod.mk.injEq] at h2
  exact h2.1

end Verif.Props
