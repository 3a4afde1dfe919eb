/-
The invariant for property C62 is kept by every step.
-/
import Verif.Proofs.StowDataInv

namespace Verif.StowData
open Verif Stow Props
open _root_.Verif.Rsilo (cstr)

/-! ### The text of the metadata -/

/-- The text of the metadata. -/
def metaText (g : Cfg) (digest changed : Bytes) : Bytes :=
  b!"[\n    \"STOW3.0\",\n    {\n" ++ (if changed = [] then [] else b!"\t\"changed\": {\n" ++ changed.drop 2 ++ b!"\n\t},\n") ++
    (b!"\t\"mtree\": \"sha256:" ++ digest ++ b!"\",\n\t\"target\": \"" ++ g.job ++ b!"\",\n\t\"time\": " ++ g.time ++ b!"\n    }\n]\n")

theorem pieces_spec (k : Nat) : ∀ (fuel : Nat) (b : Bytes), b.length ≤ fuel → (∀ q ∈ pieces k fuel b, q ≠ []) ∧ (pieces k fuel b).flatten = b
  | 0, b, h => by
    have : b = [] := List.eq_nil_of_length_eq_zero (by omega)
    subst this
    exact ⟨by simp [pieces], rfl⟩
  | fuel + 1, b, h => by
    rw [pieces]
    split
    · rename_i hb
      subst hb
      exact ⟨by simp, rfl⟩
    · rename_i hb
      obtain ⟨h1, h2⟩ := pieces_spec k fuel (b.drop (k + 1)) (by rw [List.length_drop]; omega)
      refine ⟨?_, ?_⟩
      · intro q hq
        rcases List.mem_cons.1 hq with rfl | hq
        · intro h
          rw [List.take_eq_nil_iff] at h
          rcases h with h | h
          · omega
          · exact hb h
        · exact h1 q hq
      · rw [List.flatten_cons, h2, List.take_append_drop]

theorem frame_spec (d v w : Bytes) (P : List Bytes) (hv : v ≠ []) (hw : w ≠ []) (hP : ∀ q ∈ P, q ≠ []) :
    ∃ Q, d :: v :: P ++ [w, []] = d :: Q ++ [[]] ∧ (∀ q ∈ Q, q ≠ []) ∧ Q.flatten = v ++ (P.flatten ++ w) := by
  refine ⟨v :: P ++ [w], by simp, ?_, by simp⟩
  intro q hq
  simp only [List.cons_append, List.mem_cons, List.mem_append, List.not_mem_nil, or_false] at hq
  rcases hq with rfl | hq | rfl
  · exact hv
  · exact hP q hq
  · exact hw

theorem metaMsgs_spec (g : Cfg) (d c : Bytes) : ∃ Q, metaMsgs g d c = d :: Q ++ [[]] ∧ (∀ q ∈ Q, q ≠ []) ∧ Q.flatten = metaText g d c := by
  unfold metaMsgs metaText
  by_cases hc : c = []
  · subst hc
    simp only [List.length_nil, Nat.lt_irrefl, if_false, if_true, List.append_nil]
    exact ⟨[_], rfl, by simp, by simp only [List.flatten_cons, List.flatten_nil, List.append_nil]⟩
  · have h0 : 0 < c.length := List.length_pos_iff.2 hc
    obtain ⟨h1, h2⟩ := pieces_spec (g.bufsiz - 1) (c.drop 2).length (c.drop 2) (by omega)
    simp only [h0, if_true, if_neg hc]
    obtain ⟨Q, e1, e2, e3⟩ := frame_spec d (b!"[\n    \"STOW3.0\",\n    {\n" ++ b!"\t\"changed\": {\n")
      (b!"\n\t},\n" ++ (b!"\t\"mtree\": \"sha256:" ++ d ++ b!"\",\n\t\"target\": \"" ++ g.job ++ b!"\",\n\t\"time\": " ++ g.time ++ b!"\n    }\n]\n"))
      (pieces (g.bufsiz - 1) (c.drop 2).length (c.drop 2)) (by simp) (by simp) h1
    refine ⟨Q, e1, e2, ?_⟩
    rw [e3, h2]
    simp only [List.append_assoc]

/-! ### The invariant -/

/-- What is written about a file that was sent. -/
def entry (g : Cfg) (p : Item × Bytes) : Bytes := if (g.ident p.2).isPrefixOf p.1.digest then [] else changedEntry p.1.digest (g.ident p.2)

/-- The metadata is stored with this reference and this text. -/
def metaOf (g : Cfg) (s : Sys) : Bytes × Bytes := ((g.sha g.text).take g.n, metaText g (g.sha g.text) s.changed)

/-- Before the metadata is due.  The items sent are: acknowledged; stored, with an answer on the way; in the store job; on the way. -/
structure Early (g : Cfg) (s : Sys) : Prop where
  info : s.cl.info = none
  closed : s.closed = false
  gone : s.gone = false
  mjob : s.mjob = none
  mpend : s.mpend = none
  metas : s.metas = []
  iup : iMsgs s.up = []
  idown : iMsgs s.down = []
  notFl : treeItem g ∉ s.cl.flushed
  flow : ∃ D r1 r2 r3, s.sent = D ++ (r1 ++ (r2 ++ r3)) ∧ s.ack = (r1 ++ (r2 ++ r3)).map (·.1) ∧
    dMsgs s.down = r1.map (fun p => g.pfx ++ g.ident p.2) ∧ s.pend.toList = r2.map (·.2) ∧ Flow s.store (dMsgs s.up) s.send (r3.map (·.2)) ∧
    s.stored = (D ++ r1).map (·.2) ∧ s.changed = D.flatMap (entry g) ∧ ∀ p ∈ D, p.1.isFile = true

/-- The metadata on its way. -/
inductive Phase (g : Cfg) (s : Sys) : Prop where
  | due : s.cl.info = some (treeItem g) → s.closed = false → s.gone = false → s.mjob = none → s.mpend = none → s.metas = [] →
      iMsgs s.up = [] → iMsgs s.down = [] → Phase g s
  | way (fs is : List Bytes) : s.cl.info = none → s.closed = true → s.gone = false → s.metas = [] → iMsgs s.down = [] → s.cl.subj = [] →
      s.up = fs.map .filter ++ is.map .info →
      ((s.mjob = none ∧ s.mpend = none ∧ is = metaMsgs g (g.sha g.text) s.changed) ∨
       (∃ b Q, s.mjob = some ((metaOf g s).1, b) ∧ s.mpend = none ∧ fs = [] ∧ is = Q ++ [[]] ∧ (∀ q ∈ Q, q ≠ []) ∧ b ++ Q.flatten = (metaOf g s).2) ∨
       (s.mjob = none ∧ s.mpend = some (metaOf g s) ∧ fs = [] ∧ is = [])) → Phase g s
  | answer (fs : List Bytes) (u : Bytes) : s.cl.info = none → s.closed = true → s.gone = false → s.mjob = none → s.mpend = none → s.metas = [metaOf g s] →
      s.up = [] → s.cl.subj = [] → s.sv.job = none → s.sv.queue = [] → s.down = fs.map .filter ++ [.info u] → u.length < 1024 → Phase g s
  | done : s.cl.info = none → s.closed = true → s.gone = true → s.enable = false → s.mjob = none → s.mpend = none → s.metas = [metaOf g s] → s.up = [] →
      s.cl.subj = [] → s.sv.job = none → s.sv.queue = [] → s.down = [] → Phase g s

/-- When the metadata is due and later. -/
structure Late (g : Cfg) (s : Sys) : Prop where
  taken : s.taken = s.cl.get.length
  send : s.send = none
  store : s.store = none
  pend : s.pend = none
  dup : dMsgs s.up = []
  ddown : dMsgs s.down = []
  stored : s.stored = s.sent.map (·.2)
  changed : s.changed = s.sent.flatMap (entry g)
  tree : treeItem g ∈ s.cl.get ∨ treeItem g ∈ s.cl.flushed
  phase : Phase g s

structure DInv (g : Cfg) (files : List Item) (k0 : Bytes → Bool) (s : Sys) : Prop where
  base : Base g files k0 (filt s)
  av : s.avail = s.cl.subj.length ∨ s.avail + 2 ≤ s.cl.subj.length
  snt : s.sent.map (·.1) = s.cl.get.take s.taken
  tk : s.taken ≤ s.cl.get.length
  cont : ∀ p ∈ s.sent, p.2 ≠ [] ∧ (p.1.isFile = false → p.2 = g.text)
  kn : ∀ c ∈ s.stored, s.known (g.ident c) = true
  gone : s.gone = true → s.enable = false
  rest : Early g s ∨ Late g s

/-- The list of files is not found in the archive while other files are not. -/
def InOrder (g : Cfg) (s : Sys) : Prop := treeItem g ∈ s.cl.flushed → s.cl.get = []

/-! ### The client's output -/

theorem sendIds_one (k : Nat) (s : Sys) {cp : Item} {rest : List Item} (h : s.cl.subj = cp :: rest) :
    sendIds (k + 1) s = sendIds k { s with cl := { s.cl with subj := rest, wait := s.cl.wait ++ [cp] }, avail := s.avail - 1, up := s.up ++ [.filter (cp.digest.take s.cl.idSize)] } := by
  rw [sendIds, h]

theorem sendIds_inv {g : Cfg} {files : List Item} (hg : CfgOk g files) {k0 : Bytes → Bool} : ∀ (k : Nat) (s : Sys), k ≤ s.avail → DInv g files k0 s →
    DInv g files k0 (sendIds k s) ∧ (sendIds k s).avail = s.avail - k ∧ (sendIds k s).gone = s.gone
  | 0, s, _, h => ⟨h, rfl, rfl⟩
  | k + 1, s, hk, h => by
    cases hsub : s.cl.subj with
    | nil =>
      have := h.av
      rw [hsub] at this
      simp only [List.length_nil] at this
      omega
    | cons cp rest =>
      rw [sendIds_one k s hsub]
      have key : DInv g files k0 { s with cl := { s.cl with subj := rest, wait := s.cl.wait ++ [cp] }, avail := s.avail - 1, up := s.up ++ [.filter (cp.digest.take s.cl.idSize)] } := by
        constructor
        · have hs : Stow.step g.n g.max (filt s) .send = some (.ok (filt { s with cl := { s.cl with subj := rest, wait := s.cl.wait ++ [cp] },avail := s.avail - 1, up := s.up ++ [.filter (cp.digest.take s.cl.idSize)] })) := by
            simp only [Stow.step, filt, hsub, fMsgs_append, fMsgs_f, fMsgs_nil]
          exact base_ok hg h.base hs
        · have := h.av
          rw [hsub] at this
          simp only [List.length_cons] at this ⊢
          omega
        · exact h.snt
        · exact h.tk
        · exact h.cont
        · exact h.kn
        · exact h.gone
        · rcases h.rest with he | hl
          · left
            exact { he with iup := by simp [he.iup], flow := by simpa using he.flow }
          · right
            refine { hl with dup := by simp [hl.dup], phase := ?_ }
            cases hl.phase with
            | due a1 a2 a3 a4 a5 a6 a7 a8 => exact .due a1 a2 a3 a4 a5 a6 (by simp [a7]) a8
            | way fs is a1 a2 a3 a4 a5 a6 a7 a8 => rw [a6] at hsub; cases hsub
            | answer fs u a1 a2 a3 a4 a5 a6 a7 a8 a9 a10 a11 a12 => rw [a8] at hsub; cases hsub
            | done a1 a2 a3 a4 a5 a6 a7 a8 a9 a10 a11 a12 => rw [a9] at hsub; cases hsub
      obtain ⟨h1, h2, h3⟩ := sendIds_inv hg k _ (by simp only; omega) key
      exact ⟨h1, by rw [h2]; simp only; omega, h3⟩

theorem base_same {g : Cfg} {files : List Item} {k0 : Bytes → Bool} {u u' : Stow.Sys} (h : Base g files k0 u) (e : u' = u) : Base g files k0 u' := by
  rw [e]; exact h

theorem sendPiece_inv {g : Cfg} {files : List Item} {k0 : Bytes → Bool} {s : Sys} (h : DInv g files k0 s) {sz : Nat}
    (hsz : 0 < sz) : DInv g files k0 (sendPiece sz s).1 ∧ (sendPiece sz s).1.avail = s.avail ∧ (sendPiece sz s).1.gone = s.gone ∧
      ((sendPiece sz s).2 = true → (sendPiece sz s).1.send = none) := by
  unfold sendPiece
  cases hs : s.send with
  | none => exact ⟨h, rfl, rfl, fun _ => hs⟩
  | some r =>
    rcases h.rest with he | hl
    · obtain ⟨D, r1, r2, r3, f1, f2, f3, f4, f5, f6, f7, f8⟩ := he.flow
      rw [hs] at f5
      by_cases hr : r.take sz = []
      · have hr0 : r = [] := by
          rcases List.take_eq_nil_iff.1 hr with h | h
          · omega
          · exact h
        subst hr0
        simp only [List.take_nil, ne_eq, not_true_eq_false, if_false]
        refine ⟨⟨base_same h.base (by simp [filt]), h.av, h.snt, h.tk, h.cont, h.kn, h.gone, .inl ?_⟩, trivial, trivial, fun _ => trivial⟩
        exact { he with
          iup := by simp [he.iup]
          flow := ⟨D, r1, r2, r3, f1, f2, f3, f4, by simpa using flow_end f5, f6, f7, f8⟩ }
      · simp only [ne_eq, hr, not_false_eq_true, if_true]
        refine ⟨⟨base_same h.base (by simp [filt]), h.av, h.snt, h.tk, h.cont, h.kn, h.gone, .inl ?_⟩, trivial, trivial, fun h => (by cases h)⟩
        exact { he with
          iup := by simp [he.iup]
          flow := ⟨D, r1, r2, r3, f1, f2, f3, f4, by simpa using flow_piece (p := r.take sz) (r := r.drop sz) hr (by rw [List.take_append_drop]; exact f5), f6, f7, f8⟩ }
    · rw [hl.send] at hs; cases hs

theorem drop_cons {α : Type} {l : List α} {k : Nat} {x : α} {m : List α} (h : l.drop k = x :: m) : k < l.length ∧ l.take (k + 1) = l.take k ++ [x] := by
  have hk : k < l.length := by
    rcases Nat.lt_or_ge k l.length with h' | h'
    · exact h'
    · rw [List.drop_of_length_le h'] at h; cases h
  refine ⟨hk, ?_⟩
  rw [List.take_succ_eq_append_getElem hk]
  have := List.getElem_cons_drop (h := hk)
  rw [h] at this
  simp only [List.cons.injEq] at this
  rw [this.1]

theorem openNext_inv {g : Cfg} {files : List Item} (hg : CfgOk g files) {k0 : Bytes → Bool} {s : Sys} (h : DInv g files k0 s) (hsend : s.send = none) {c : Bytes}
    (hc : c ≠ []) : DInv g files k0 (openNext g c s).1 ∧ (openNext g c s).1.avail = s.avail ∧ (openNext g c s).1.gone = s.gone := by
  unfold openNext
  cases hd : s.cl.get.drop s.taken with
  | nil => exact ⟨h, rfl, rfl⟩
  | cons cp l =>
    obtain ⟨hk, ht⟩ := drop_cons hd
    have hmem : cp ∈ s.cl.get := List.mem_of_mem_drop (by rw [hd]; simp)
    rcases h.rest with he | hl
    · obtain ⟨D, r1, r2, r3, f1, f2, f3, f4, f5, f6, f7, f8⟩ := he.flow
      rw [hsend] at f5
      have key : ∀ b : Bytes, b ≠ [] → (cp.isFile = false → b = g.text) →
          DInv g files k0 { s with taken := s.taken + 1, ack := s.ack ++ [cp], send := some b, sent := s.sent ++ [(cp, b)] } := by
        intro b hb hb2
        refine ⟨base_same h.base rfl, h.av, by simp [h.snt, ht], hk, ?_, h.kn, h.gone, .inl ?_⟩
        · intro p hp
          rcases List.mem_append.1 hp with hp | hp
          · exact h.cont p hp
          · rw [List.mem_singleton.1 hp]; exact ⟨hb, hb2⟩
        · exact { he with
            flow := ⟨D, r1, r2, r3 ++ [(cp, b)], by simp [f1], by simp [f2], f3, f4, by simpa using flow_open hb f5, f6, f7, f8⟩ }
      by_cases hf : cp.isFile = false
      · simp only
        rw [if_pos hf]
        exact ⟨key g.text hg.text (fun _ => rfl), rfl, rfl⟩
      · simp only
        rw [if_neg hf]
        exact ⟨key c hc (fun h => absurd h hf), rfl, rfl⟩
    · rw [hl.taken, List.drop_length] at hd; cases hd

theorem only_filter : ∀ {l : List Msg}, dMsgs l = [] → iMsgs l = [] → l = (fMsgs l).map .filter
  | [], _, _ => rfl
  | .filter p :: l, h1, h2 => by
    rw [fMsgs_f, List.map_cons, ← only_filter (l := l) (by simpa using h1) (by simpa using h2)]
  | .data p :: l, h1, h2 => by simp at h1
  | .info p :: l, h1, h2 => by simp at h2

theorem sendInfo_inv {g : Cfg} {files : List Item} (hg : CfgOk g files) {k0 : Bytes → Bool} {s : Sys} (h : DInv g files k0 s) (hav : s.avail = 0) :
    ∃ s', sendInfo g s = .ok s' ∧ DInv g files k0 s' ∧ s'.gone = s.gone := by
  unfold sendInfo
  cases hi : s.cl.info with
  | none => exact ⟨s, rfl, h, rfl⟩
  | some cp =>
    rcases h.rest with he | hl
    · rw [he.info] at hi; cases hi
    · cases hl.phase with
      | due a1 a2 a3 a4 a5 a6 a7 a8 =>
        rw [a1] at hi
        cases hi
        simp only [a2]
        have hsub : s.cl.subj = [] := by
          rcases tree_rest hg h.base hl.tree with h1 | h1
          · exact h1
          · have h1' : s.cl.subj = [endItem] := h1
            have := h.av
            rw [h1', hav] at this
            simp at this
        refine ⟨_, rfl, ⟨base_same (base_info h.base none) (by simp [filt]), h.av, h.snt, h.tk, h.cont, h.kn, h.gone, .inr ?_⟩, rfl⟩
        refine { hl with dup := by simp [hl.dup], phase := ?_ }
        have hup := only_filter hl.dup a7
        refine .way (fMsgs s.up) (metaMsgs g (g.sha g.text) s.changed) rfl rfl a3 a6 a8 hsub ?_ (.inl ⟨a4, a5, rfl⟩)
        exact congrArg (· ++ _) hup
      | way fs is a1 => rw [a1] at hi; cases hi
      | answer fs u a1 => rw [a1] at hi; cases hi
      | done a1 => rw [a1] at hi; cases hi

theorem ctl_ok {s : Sys} (h : s.gone = false) (b : Bool) : ctl b s = .ok { s with enable := b } := by
  rw [ctl, h]; rfl

theorem ctl_inv {g : Cfg} {files : List Item} {k0 : Bytes → Bool} {s : Sys} (h : DInv g files k0 s) (hgone : s.gone = false) (b : Bool) :
    ∃ s', ctl b s = .ok s' ∧ DInv g files k0 s' ∧ s'.cl = s.cl := by
  refine ⟨_, ctl_ok hgone b, ⟨base_same h.base rfl, h.av, h.snt, h.tk, h.cont, h.kn, fun k => absurd (hgone.symm.trans k) (by decide), ?_⟩, rfl⟩
  rcases h.rest with he | hl
  · exact .inl { he with }
  · right
    refine { hl with phase := ?_ }
    cases hl.phase with
    | due a1 a2 a3 a4 a5 a6 a7 a8 => exact .due a1 a2 a3 a4 a5 a6 a7 a8
    | way fs is a1 a2 a3 a4 a5 a6 a7 a8 => exact .way fs is a1 a2 a3 a4 a5 a6 a7 a8
    | answer fs u a1 a2 a3 a4 a5 a6 a7 a8 a9 a10 a11 a12 => exact .answer fs u a1 a2 a3 a4 a5 a6 a7 a8 a9 a10 a11 a12
    | done a1 a2 a3 => rw [a3] at hgone; cases hgone

theorem out_inv {g : Cfg} {files : List Item} (hg : CfgOk g files) {k0 : Bytes → Bool} {s : Sys} (h : DInv g files k0 s) (hen : s.enable = true)
    {sz : Nat} (hsz : 0 < sz) {c : Bytes} (hc : c ≠ []) : ∃ s', out g sz c s = .ok s' ∧ DInv g files k0 s' := by
  have hgone : s.gone = false := by
    cases hg' : s.gone with
    | false => rfl
    | true => rw [h.gone hg'] at hen; cases hen
  unfold out
  obtain ⟨h1, -, h3⟩ := sendIds_inv hg (min 10 s.avail) s (by omega) h
  obtain ⟨k1, -, k3, k4⟩ := sendPiece_inv h1 hsz
  simp only
  split
  · exact ⟨_, rfl, k1⟩
  · rename_i hr
    split
    · exact ⟨_, rfl, k1⟩
    · rename_i hav
      obtain ⟨m1, m2, m3⟩ := openNext_inv hg k1 (k4 (by simpa using hr)) hc
      split
      · exact ⟨_, rfl, m1⟩
      · obtain ⟨s2, e2, n1, n2⟩ := sendInfo_inv hg m1 (by omega)
        obtain ⟨s3, e3, o1, -⟩ := ctl_inv n1 (by rw [n2, m3, k3, h3, hgone]) false
        exact ⟨s3, by rw [e2]; exact e3, o1⟩

/-! ### The client's input -/

theorem infoAfter_tree {g : Cfg} {files : List Item} (hg : CfgOk g files) : ∀ {F : List Item} {i : Option Item},
    (∀ x ∈ F, x.isFile = true ∨ x = treeItem g ∨ x = endItem) → treeItem g ∈ F ∨ i = some (treeItem g) → infoAfter i F = some (treeItem g)
  | [], i, _, h => by
    rcases h with h | h
    · cases h
    · exact h
  | x :: F, i, hF, h => by
    rw [infoAfter]
    refine infoAfter_tree hg (fun y hy => hF y (by simp [hy])) ?_
    rcases h with h | h
    · rcases List.mem_cons.1 h with h | h
      · right
        rw [← h, if_pos ⟨rfl, tree_ne hg⟩]
      · exact .inl h
    · right
      split
      · rename_i hx
        rcases hF x (by simp) with h' | h' | h'
        · rw [h'] at hx; cases hx.1
        · rw [h']
        · rw [h'] at hx; exact absurd rfl hx.2
      · exact h

theorem takeWhile_of_all {f : UInt8 → Bool} : ∀ {l : Bytes}, (∀ x ∈ l, f x = true) → l.takeWhile f = l
  | [], _ => rfl
  | a :: l, h => by
    rw [List.takeWhile_cons, h a (by simp), if_pos rfl, takeWhile_of_all (fun x hx => h x (by simp [hx]))]

theorem afterSlash_id {g : Cfg} {files : List Item} (hg : CfgOk g files) (c : Bytes) : afterSlash (cstr (g.pfx ++ g.ident c)) = some (g.ident c) := by
  obtain ⟨p, hp, h0⟩ := hg.pfx
  obtain ⟨-, h1, h2⟩ := hg.sha c
  have h1' : (47 : UInt8) ∉ g.ident c := fun h => h1 (List.mem_of_mem_take h)
  have h2' : (0 : UInt8) ∉ g.ident c := fun h => h2 (List.mem_of_mem_take h)
  have hc : cstr (g.pfx ++ g.ident c) = g.pfx ++ g.ident c := by
    apply takeWhile_of_all
    intro x hx
    simp only [bne_iff_ne, decide_eq_true_eq, ne_eq]
    rintro rfl
    rw [hp] at hx
    simp only [List.mem_append, List.mem_singleton] at hx
    rcases hx with (hx | hx) | hx
    · exact h0 hx
    · cases hx
    · exact h2' hx
  rw [hc, hp, afterSlash, if_pos (by simp)]
  congr 1
  rw [List.reverse_append, List.reverse_append, List.takeWhile_append_of_pos]
  · simp
  · intro x hx
    have : x ≠ 47 := fun e => h1' (by rw [← e]; exact List.mem_reverse.1 hx)
    simpa using this

theorem innData_inv {g : Cfg} {files : List Item} (hg : CfgOk g files) {k0 : Bytes → Bool} {s : Sys} (h : DInv g files k0 s) {p : Bytes} {down : List Msg}
    (hd : s.down = .data p :: down) : ∃ s', inn s = .ok s' ∧ DInv g files k0 s' := by
  have he : Early g s := by
    rcases h.rest with he | hl
    · exact he
    · have := hl.ddown
      rw [hd] at this
      simp at this
  obtain ⟨D, r1, r2, r3, f1, f2, f3, f4, f5, f6, f7, f8⟩ := he.flow
  rw [hd, dMsgs_d] at f3
  cases r1 with
  | nil => cases f3
  | cons a r1 =>
    obtain ⟨x, c⟩ := a
    simp only [List.map_cons, List.cons.injEq] at f3
    obtain ⟨rfl, f3⟩ := f3
    have hlen : (g.pfx ++ g.ident c).length < 1024 := by
      have h1 := hg.len
      have h2 : (g.ident c).length ≤ 64 := by
        have := (hg.sha c).1
        rw [Cfg.ident, List.length_take]; omega
      rw [List.length_append]; omega
    have hack : s.ack = x :: (r1 ++ (r2 ++ r3)).map (·.1) := f2
    have hgone := he.gone
    have hbase : fMsgs s.down = fMsgs down := by rw [hd]; simp
    have hxs : (x, c) ∈ s.sent := by rw [f1]; simp
    have hxg : x ∈ s.cl.get := by
      have : x ∈ s.sent.map (·.1) := List.mem_map.2 ⟨_, hxs, rfl⟩
      rw [h.snt] at this
      exact List.mem_of_mem_take this
    unfold inn
    rw [hd]
    simp only [decide_eq_true hlen, Res.check_true, Res.ok_bind]
    unfold dataResp
    simp only [hack, afterSlash_id hg]
    by_cases hx : x.isFile = false
    · have hxt : x = treeItem g := by
        rcases get_item hg h.base (u := filt s) hxg with h' | h'
        · rw [h'.1] at hx; cases hx
        · exact h'
      have hct : c = g.text := (h.cont _ hxs).2 hx
      have hpre : (g.ident c).isPrefixOf x.digest = true := by
        rw [hxt, hct]
        exact List.isPrefixOf_iff_prefix.2 (List.take_prefix _ _)
      have hne : x.digest ≠ [] := by rw [hxt]; exact tree_ne hg
      rw [if_pos ⟨hx, hne⟩, hpre]
      simp only [Res.check_true, Res.ok_bind]
      have hget : s.cl.get = D.map (·.1) ++ treeItem g :: ((r1 ++ (r2 ++ r3)).map (·.1) ++ s.cl.get.drop s.taken) := by
        have := List.take_append_drop s.taken s.cl.get
        rw [← h.snt, f1] at this
        refine this.symm.trans ?_
        rw [hxt]
        simp
      have hY := get_tree hg h.base (u := filt s) hget
      obtain ⟨h1, h2⟩ := List.append_eq_nil_iff.1 hY
      have h3 : r1 ++ (r2 ++ r3) = [] := List.map_eq_nil_iff.1 h1
      obtain ⟨rfl, h4⟩ := List.append_eq_nil_iff.1 h3
      obtain ⟨rfl, rfl⟩ := List.append_eq_nil_iff.1 h4
      obtain ⟨k1, k2, k3⟩ := flow_none f5
      have htk : s.taken = s.cl.get.length := by
        have := h.tk
        have h5 := List.drop_eq_nil_iff.1 h2
        omega
      refine ⟨_, ctl_ok (by exact hgone) true, ⟨base_same (base_info h.base (some x)) (by simp [filt, hd]), h.av, h.snt, h.tk, h.cont, h.kn, fun k => absurd (hgone.symm.trans k) (by decide), .inr ?_⟩⟩
      refine ⟨htk, k3, k1, ?_, k2, f3, ?_, ?_, .inl (by rw [← hxt]; exact hxg), ?_⟩
      · have : s.pend.toList = [] := f4
        cases hp : s.pend with
        | none => rfl
        | some d => rw [hp] at this; cases this
      · show s.stored = _
        rw [f6, f1]; simp
      · show s.changed = _
        rw [f7, f1]
        simp only [List.append_nil, List.nil_append, List.flatMap_append, List.flatMap_cons, List.flatMap_nil]
        rw [entry, hpre]
        simp
      · exact .due (by rw [hxt]) he.closed he.gone he.mjob he.mpend he.metas he.iup (by have := he.idown; rw [hd] at this; simpa using this)
    · have hx' : x.isFile = true := by simpa using hx
      have key : ∀ ch : Bytes, ch = s.changed ++ entry g (x, c) →
          DInv g files k0 { s with down := down, ack := (r1 ++ (r2 ++ r3)).map (·.1), changed := ch, enable := true } := by
        intro ch hch
        refine ⟨base_same h.base (by simp [filt, hd]), h.av, h.snt, h.tk, h.cont, h.kn, fun k => absurd (hgone.symm.trans k) (by decide), .inl ?_⟩
        exact { he with
          idown := by have := he.idown; rw [hd] at this; simpa using this
          flow := ⟨D ++ [(x, c)], r1, r2, r3, by simp [f1], rfl, f3, f4, f5, by simp [f6], by simp [hch, f7], by
            intro q hq
            rcases List.mem_append.1 hq with hq | hq
            · exact f8 q hq
            · rw [List.mem_singleton.1 hq]; exact hx'⟩ }
      rw [if_neg (fun k => hx k.1)]
      split
      · rename_i hp
        exact ⟨_, ctl_ok (by exact hgone) true, key s.changed (by rw [entry, hp]; simp)⟩
      · rename_i hp
        rw [show Res.access (x.isFile && !s.closed) = .ok () by rw [hx', he.closed]; rfl]
        simp only [Res.ok_bind]
        exact ⟨_, ctl_ok (by exact hgone) true, key (s.changed ++ changedEntry x.digest (g.ident c)) (by rw [entry, if_neg hp])⟩

theorem innInfo_inv {g : Cfg} {files : List Item} {k0 : Bytes → Bool} {s : Sys} (h : DInv g files k0 s) {p : Bytes} {down : List Msg}
    (hd : s.down = .info p :: down) : ∃ s', inn s = .ok s' ∧ DInv g files k0 s' := by
  rcases h.rest with he | hl
  · have := he.idown
    rw [hd] at this
    simp at this
  cases hl.phase with
  | due a1 a2 a3 a4 a5 a6 a7 a8 => rw [hd] at a8; simp at a8
  | way fs is a1 a2 a3 a4 a5 a6 a7 a8 => rw [hd] at a5; simp at a5
  | done a1 a2 a3 a4 a5 a6 a7 a8 a9 a10 a11 a12 => rw [a12] at hd; cases hd
  | answer fs u a1 a2 a3 a4 a5 a6 a7 a8 a9 a10 a11 a12 =>
    cases fs with
    | cons f fs => rw [a11] at hd; simp at hd
    | nil =>
      have hd' := a11
      rw [hd] at hd'
      simp only [List.map_nil, List.nil_append, List.cons.injEq, Msg.info.injEq] at hd'
      obtain ⟨rfl, rfl⟩ := hd'
      unfold inn
      rw [hd]
      simp only [decide_eq_true a12, Res.check_true, Res.ok_bind]
      rw [show Res.check (!s.gone) = .ok () by rw [a3]; rfl]
      simp only [Res.ok_bind]
      refine ⟨_, rfl, ⟨base_same h.base (by simp [filt, hd]), h.av, h.snt, h.tk, h.cont, h.kn, fun _ => rfl, .inr ?_⟩⟩
      refine { hl with ddown := by simp, phase := ?_ }
      exact .done a1 a2 rfl rfl a4 a5 a6 a7 a8 a9 a10 rfl

theorem innFilter_inv {g : Cfg} {files : List Item} (hg : CfgOk g files) {k0 : Bytes → Bool} {s : Sys} (h : DInv g files k0 s) {p : Bytes} {down : List Msg}
    (hd : s.down = .filter p :: down) : ∃ s', inn s = .ok s' ∧ (InOrder g s' → DInv g files k0 s') := by
  have hs : Stow.step g.n g.max (filt s) .resp = some (filterResp s.cl p >>= fun c => .ok { (filt s) with cl := c, down := fMsgs down }) := by
    simp only [Stow.step, filt, hd, fMsgs_f]
  obtain ⟨u', hu, hb⟩ := base_step hg h.base hs
  obtain ⟨c, hc, hu'⟩ := Res.bind_eq_ok.1 hu
  cases hu'
  obtain ⟨G, F, hgr, -⟩ := filterResp_grows hc
  have hlen : p.length < 1024 := by
    unfold filterResp at hc
    split at hc
    · omega
    · split at hc
      · omega
      · split at hc
        · omega
        · cases hc
  have hgone : s.gone = false := by
    rcases h.rest with he | hl
    · exact he.gone
    · cases hl.phase with
      | due a1 a2 a3 => exact a3
      | way fs is a1 a2 a3 => exact a3
      | answer fs u a1 a2 a3 => exact a3
      | done a1 a2 a3 a4 a5 a6 a7 a8 a9 a10 a11 a12 => rw [a12] at hd; cases hd
  unfold inn
  rw [hd]
  simp only [decide_eq_true hlen, Res.check_true, Res.ok_bind, hc]
  refine ⟨_, ctl_ok (by exact hgone) true, ?_⟩
  intro hord
  have htk : s.taken ≤ c.get.length := by rw [hgr.get, List.length_append]; have := h.tk; omega
  have hsnt : s.sent.map (·.1) = c.get.take s.taken := by
    rw [hgr.get, h.snt, List.take_append_of_le_length h.tk]
  refine ⟨hb, by rw [hgr.subj]; exact h.av, hsnt, htk, h.cont, h.kn, fun k => absurd (hgone.symm.trans k) (by decide), ?_⟩
  rcases h.rest with he | hl
  · by_cases ht : treeItem g ∈ F
    · right
      have hget : c.get = [] := hord (by show treeItem g ∈ c.flushed; rw [hgr.flushed]; simp [ht])
      have hsent : s.sent = [] := by
        rw [hget] at hsnt
        exact List.map_eq_nil_iff.1 (by rw [hsnt]; simp)
      have htk0 : s.taken = 0 := by rw [hget] at htk; simpa using htk
      obtain ⟨D, r1, r2, r3, f1, f2, f3, f4, f5, f6, f7, f8⟩ := he.flow
      rw [hsent] at f1
      obtain ⟨hD, k1⟩ := List.append_eq_nil_iff.1 f1.symm
      obtain ⟨hr1, k1⟩ := List.append_eq_nil_iff.1 k1
      obtain ⟨hr2, hr3⟩ := List.append_eq_nil_iff.1 k1
      subst hD hr1 hr2 hr3
      obtain ⟨k1, k2, k3⟩ := flow_none f5
      rw [hd, dMsgs_f] at f3
      refine ⟨by show s.taken = c.get.length; rw [hget, htk0]; rfl, k3, k1, ?_, k2, f3, ?_, ?_, .inr ?_, ?_⟩
      · have : s.pend.toList = [] := f4
        cases hp : s.pend with
        | none => rfl
        | some d => rw [hp] at this; cases this
      · show s.stored = s.sent.map _
        rw [f6, hsent]; rfl
      · show s.changed = s.sent.flatMap _
        rw [f7, hsent]
      · show treeItem g ∈ c.flushed
        rw [hgr.flushed]; simp [ht]
      · refine .due ?_ he.closed hgone he.mjob he.mpend he.metas he.iup (by have := he.idown; rw [hd] at this; simpa using this)
        show c.info = _
        rw [hgr.info]
        refine infoAfter_tree hg (fun x hx => ?_) (.inl ht)
        exact flushed_item hg hb (u := { (filt s) with cl := c, down := fMsgs down }) (by show x ∈ c.flushed; rw [hgr.flushed]; simp [hx])
    · left
      exact { he with
        info := by
          show c.info = none
          rw [hgr.info, he.info]
          apply infoAfter_keep
          intro x hx
          rcases flushed_item hg hb (u := { (filt s) with cl := c, down := fMsgs down }) (x := x)
            (by show x ∈ c.flushed; rw [hgr.flushed]; simp [hx]) with h' | h' | h'
          · exact .inl h'
          · rw [h'] at hx; exact absurd hx ht
          · rw [h']; exact .inr rfl
        idown := by have := he.idown; rw [hd] at this; simpa using this
        notFl := by
          show treeItem g ∉ c.flushed
          rw [hgr.flushed, List.mem_append]
          rintro (h' | h')
          · exact he.notFl h'
          · exact ht h'
        flow := by have := he.flow; rw [hd] at this; simpa using this }
  · right
    obtain ⟨rfl, hF⟩ := tree_last hg h.base hb hgr.get hgr.flushed hl.tree
    have hget : c.get = s.cl.get := by rw [hgr.get]; simp
    have hinfo : c.info = s.cl.info := by
      rw [hgr.info]
      rcases hF with rfl | rfl
      · rfl
      · exact infoAfter_keep (by intro x hx; rw [List.mem_singleton.1 hx]; exact .inr rfl)
    refine { hl with
      taken := by show s.taken = c.get.length; rw [hget]; exact hl.taken
      ddown := by have := hl.ddown; rw [hd] at this; simpa using this
      tree := by
        show treeItem g ∈ c.get ∨ treeItem g ∈ c.flushed
        rw [hget, hgr.flushed, List.mem_append]
        rcases hl.tree with h' | h'
        · exact .inl h'
        · exact .inr (.inl h')
      phase := ?_ }
    have hsub := hgr.subj
    cases hl.phase with
    | due a1 a2 a3 a4 a5 a6 a7 a8 => exact .due (hinfo.trans a1) a2 a3 a4 a5 a6 a7 (by rw [hd] at a8; simpa using a8)
    | way fs is a1 a2 a3 a4 a5 a6 a7 a8 => exact .way fs is (hinfo.trans a1) a2 a3 a4 (by rw [hd] at a5; simpa using a5) (hsub.trans a6) a7 a8
    | answer fs u a1 a2 a3 a4 a5 a6 a7 a8 a9 a10 a11 a12 =>
      cases fs with
      | nil => rw [a11] at hd; simp at hd
      | cons f fs =>
        refine .answer fs u (hinfo.trans a1) a2 a3 a4 a5 a6 a7 (hsub.trans a8) a9 a10 ?_ a12
        rw [a11] at hd
        simp only [List.map_cons, List.cons_append, List.cons.injEq] at hd
        exact hd.2.symm
    | done a1 a2 a3 a4 a5 a6 a7 a8 a9 a10 a11 a12 => rw [a12] at hd; cases hd

theorem inn_inv {g : Cfg} {files : List Item} (hg : CfgOk g files) {k0 : Bytes → Bool} {s : Sys} (h : DInv g files k0 s) :
    ∃ s', inn s = .ok s' ∧ (InOrder g s' → DInv g files k0 s') := by
  cases hd : s.down with
  | nil => exact ⟨s, by unfold inn; rw [hd], fun _ => h⟩
  | cons m down =>
    cases m with
    | filter p => exact innFilter_inv hg h hd
    | data p =>
      obtain ⟨s', h1, h2⟩ := innData_inv hg h hd
      exact ⟨s', h1, fun _ => h2⟩
    | info p =>
      obtain ⟨s', h1, h2⟩ := innInfo_inv h hd
      exact ⟨s', h1, fun _ => h2⟩

end Verif.StowData
