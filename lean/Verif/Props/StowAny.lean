/-
C88: what a client of `stow` does, whatever the server sends.
-/
import Verif.Model.StowAny
import Verif.Props.Stevedore

namespace Verif.Props
open _root_.Verif.Stow (Item subjFlush flushAll flushN flushTo filterResp)
open _root_.Verif.StowData (Cfg Msg sendIds sendPiece openNext sendInfo metaMsgs afterSlash changedEntry dataResp ctl)
open _root_.Verif.StowAny (Cl Out In)
open Verif
open _root_.Verif.Rsilo (cstr)
open Client (payloads)

namespace AnyServer

/-- A message with the number of its command. -/
def frame : Msg → Nat × Bytes
  | .filter p => (1, p)
  | .data p => (2, p)
  | .info p => (3, p)

/-- The payloads of what the client has sent. -/
def sends (n : Nat) (up : List Msg) : List Bytes := payloads n (up.map frame)

/-- What mtree will list, its output, and the end mark. -/
def items (g : Cfg) (files : List Item) : List Item := files ++ [⟨false, [], g.sha g.text⟩, ⟨false, [], []⟩]

/-- `Pieces ps os rest`: the messages `ps` are those of the files `os`, each followed by an empty one, and then the pieces `rest` of a file that is not complete. -/
def Pieces (ps : List Bytes) (os : List (List Bytes)) (rest : List Bytes) : Prop :=
  ps = (os.map (fun o => o ++ [[]])).flatten ++ rest ∧ (∀ o ∈ os, [] ∉ o) ∧ [] ∉ rest

/-- The IDs that the server has asked for. -/
def asks (got : List (Nat × Bytes)) : List Bytes := (payloads 1 got).filter (fun p => decide (16 ≤ p.length ∧ p.length ≤ 64))

/-- What is noted about a file when the server says how it was stored. -/
def noted (x : Item) (p : Bytes) : Bytes :=
  match afterSlash (cstr p) with
  | none => []
  | some pp => if pp.isPrefixOf x.digest then [] else changedEntry x.digest pp

/-- The last state of the client. -/
def lastCl : Out → Option Cl
  | .go c => some c
  | .exit c => some c
  | .abort c => some c
  | .ub => none

/-! ### The invariant -/

/-- The part of the state that matters. -/
structure Core where
  cl : Stow.Client
  taken : Nat
  ack : List Item
  send : Option Bytes
  changed : Bytes
  closed : Bool
  up : List Msg
  sent : List (Item × Bytes)

def core (s : StowData.Sys) : Core := ⟨s.cl, s.taken, s.ack, s.send, s.changed, s.closed, s.up, s.sent⟩

/-- How far the file that is being sent has come. -/
def Sending (sent : List (Item × Bytes)) (os : List (List Bytes)) (rest : List Bytes) : Option Bytes → Prop
  | none => rest = [] ∧ os.map List.flatten = sent.map (·.2)
  | some r => ∃ front x, sent = front ++ [(x, rest.flatten ++ r)] ∧ os.map List.flatten = front.map (·.2)

structure FilesOk (g : Cfg) (files : List Item) : Prop where
  files : ∀ x ∈ files, x.isFile = true
  sha : g.sha g.text ≠ []

/-- `k` items are not on the `subj_list` or the `wait_list` any more; `m` files were acknowledged. -/
structure Inv (g : Cfg) (files : List Item) (k m : Nat) (c : Core) (got : List (Nat × Bytes)) : Prop where
  rest : c.cl.wait ++ c.cl.subj = (items g files).drop k
  get : c.cl.get.Sublist ((items g files).take k)
  noend : ∀ x ∈ c.cl.get, x.digest ≠ []
  ids1 : (sends 1 c.up).length + c.cl.subj.length = (items g files).length
  ids2 : ∀ (i : Nat) (p : Bytes), (sends 1 c.up)[i]? = some p → ∃ x, (items g files)[i]? = some x ∧ p <+: x.digest
  asks1 : (asks got).length = c.cl.get.length
  asks2 : ∀ (i : Nat) (x : Item) (p : Bytes), c.cl.get[i]? = some x → (asks got)[i]? = some p → p <+: x.digest ++ [0]
  taken : c.taken ≤ c.cl.get.length
  sent : c.sent.map (·.1) = c.cl.get.take c.taken
  data : ∃ os rest, Pieces (sends 2 c.up) os rest ∧ Sending c.sent os rest c.send
  text : ∀ p ∈ c.sent, p.1.isFile = false → p.2 = g.text
  ack : c.ack = (c.sent.map (·.1)).drop m
  ackf : ∀ x ∈ (c.sent.map (·.1)).take m, x.isFile = true
  mle : m ≤ c.sent.length
  changed : c.changed = (List.zipWith noted ((c.sent.map (·.1)).take m) ((payloads 2 got).take m)).flatten
  resp : (payloads 2 got).length = m ∨ (m < (payloads 2 got).length ∧ ∃ x, (c.sent.map (·.1))[m]? = some x ∧ x.isFile = false)
  info : ∀ x, c.cl.info = some x → x = ⟨false, [], g.sha g.text⟩
  infos : sends 3 c.up = if c.closed then metaMsgs g (g.sha g.text) c.changed else []

theorem sends_append (n : Nat) (a b : List Msg) : sends n (a ++ b) = sends n a ++ sends n b := by
  simp [sends, payloads]

theorem sends_filter (n : Nat) (p : Bytes) : sends n [.filter p] = if n = 1 then [p] else [] := by
  by_cases h : n = 1
  · subst h; rfl
  · simp [sends, payloads, frame, h]; omega

theorem sends_data (n : Nat) (p : Bytes) : sends n [.data p] = if n = 2 then [p] else [] := by
  by_cases h : n = 2
  · subst h; rfl
  · simp [sends, payloads, frame, h]; omega

theorem sends_infos (n : Nat) : ∀ ps : List Bytes, sends n (ps.map .info) = if n = 3 then ps else []
  | [] => by simp [sends, payloads]
  | p :: ps => by
    rw [List.map_cons, show (Msg.info p :: ps.map Msg.info) = [Msg.info p] ++ ps.map Msg.info from rfl, sends_append, sends_infos n ps]
    by_cases h : n = 3
    · subst h; rfl
    · rw [if_neg h, if_neg h]
      simp [sends, payloads, frame]; omega

theorem payloads_snoc (n c : Nat) (got : List (Nat × Bytes)) (p : Bytes) : payloads n (got ++ [(c, p)]) = payloads n got ++ if c = n then [p] else [] := by
  unfold payloads
  rw [List.filter_append, List.map_append]
  by_cases h : c = n
  · simp [h]
  · simp [h]

theorem asks_snoc (c : Nat) (got : List (Nat × Bytes)) (p : Bytes) : asks (got ++ [(c, p)]) = asks got ++ if c = 1 ∧ 16 ≤ p.length ∧ p.length ≤ 64 then [p] else [] := by
  unfold asks
  rw [payloads_snoc, List.filter_append]
  by_cases h : c = 1
  · rw [if_pos h]
    by_cases h2 : 16 ≤ p.length ∧ p.length ≤ 64
    · rw [if_pos ⟨h, h2⟩]; simp [h2]
    · rw [if_neg (fun x => h2 x.2)]; simp; omega
  · rw [if_neg h, if_neg (fun x => h x.1)]; rfl

theorem inv_start (g : Cfg) (files : List Item) : Inv g files 0 0 (core (StowAny.start g files).sys) [] := by
  refine ⟨rfl, List.Sublist.refl _, ?_, ?_, ?_, rfl, ?_, Nat.le_refl _, rfl, ⟨[], [], ⟨rfl, ?_, ?_⟩, rfl, rfl⟩, ?_, rfl, ?_, Nat.le_refl _, rfl, .inl rfl, ?_, rfl⟩
  · intro x h; cases h
  · show 0 + _ = _; rw [Nat.zero_add]; rfl
  · intro i p h; cases h
  · intro i x p h; cases h
  · intro o h; cases h
  · intro h; cases h
  · intro p h; cases h
  · intro p h; cases h
  · intro x h; cases h

/-! ### Sending -/

variable {g : Cfg} {files : List Item} {k m : Nat} {got : List (Nat × Bytes)}

theorem inv_ids : ∀ (j : Nat) {s : StowData.Sys}, Inv g files k m (core s) got → Inv g files k m (core (sendIds j s)) got
  | 0, s, h => h
  | j + 1, s, h => by
    unfold sendIds
    cases hs : s.cl.subj with
    | nil => exact h
    | cons cp rest =>
      apply inv_ids j
      have h1 := h.ids1
      have hr := h.rest
      have hlen := congrArg List.length hr
      simp only [core, hs, List.length_append, List.length_cons, List.length_drop] at h1 hr hlen
      have hx : (items g files)[(sends 1 s.up).length]? = some cp := by
        have h2 : ((items g files).drop k)[s.cl.wait.length]? = some cp := by rw [← hr]; simp
        rw [List.getElem?_drop] at h2
        rw [← h2]
        congr 1
        omega
      refine { h with
        rest := ?_
        ids1 := ?_
        ids2 := ?_
        data := ?_
        infos := ?_ }
      · show (s.cl.wait ++ [cp]) ++ rest = _
        rw [← hr]; simp
      · show (sends 1 (s.up ++ [_])).length + rest.length = _
        rw [sends_append, sends_filter, if_pos rfl, List.length_append, List.length_singleton]
        omega
      · intro i p hp
        change (sends 1 (s.up ++ [_]))[i]? = some p at hp
        rw [sends_append, sends_filter, if_pos rfl] at hp
        by_cases hi : i < (sends 1 s.up).length
        · rw [List.getElem?_append_left hi] at hp
          exact h.ids2 i p hp
        · rw [List.getElem?_append_right (by omega)] at hp
          have : i - (sends 1 s.up).length = 0 := by
            rcases Nat.eq_zero_or_pos (i - (sends 1 s.up).length) with h | h
            · exact h
            · rw [List.getElem?_eq_none (by simp only [List.length_singleton]; omega)] at hp; cases hp
          rw [this] at hp
          cases hp
          refine ⟨cp, ?_, List.take_prefix _ _⟩
          rw [← hx]
          congr 1
          omega
      · obtain ⟨os, rs, h3, h4⟩ := h.data
        refine ⟨os, rs, ?_, h4⟩
        show Pieces (sends 2 (s.up ++ [_])) os rs
        rw [sends_append, sends_filter, if_neg (by decide), List.append_nil]
        exact h3
      · show sends 3 (s.up ++ [_]) = _
        rw [sends_append, sends_filter, if_neg (by decide), List.append_nil]
        exact h.infos

theorem inv_piece {s : StowData.Sys} (sz : Nat) (h : Inv g files k m (core s) got) :
    Inv g files k m (core (sendPiece (sz + 1) s).1) got ∧ ((sendPiece (sz + 1) s).2 = true → (sendPiece (sz + 1) s).1.send = none) := by
  unfold sendPiece
  cases hs : s.send with
  | none => exact ⟨h, fun _ => hs⟩
  | some r =>
    obtain ⟨os, rs, ⟨h1, h2, h3⟩, h4⟩ := h.data
    simp only [core, hs] at h4 h1
    obtain ⟨front, x, h5, h6⟩ := h4
    have e1 : ∀ p, sends 1 (s.up ++ [Msg.data p]) = sends 1 s.up := by
      intro p; rw [sends_append, sends_data, if_neg (by decide), List.append_nil]
    have e3 : ∀ p, sends 3 (s.up ++ [Msg.data p]) = sends 3 s.up := by
      intro p; rw [sends_append, sends_data, if_neg (by decide), List.append_nil]
    have e2 : ∀ p, sends 2 (s.up ++ [Msg.data p]) = sends 2 s.up ++ [p] := by
      intro p; rw [sends_append, sends_data, if_pos rfl]
    by_cases hr : r.take (sz + 1) = []
    · have hr0 : r = [] := by
        cases r with
        | nil => rfl
        | cons a b => simp at hr
      dsimp only
      rw [if_neg (by simpa using hr)]
      refine ⟨{ h with
        ids1 := ?_
        ids2 := ?_
        data := ⟨os ++ [rs], [], ⟨?_, ?_, ?_⟩, ?_⟩
        infos := ?_ }, fun _ => rfl⟩
      · have := h.ids1; simp only [core, e1] at this ⊢; exact this
      · have := h.ids2; simp only [core, e1] at this ⊢; exact this
      · simp only [core, e2, hr, h1]; simp
      · intro o ho
        rcases List.mem_append.1 ho with ho | ho
        · exact h2 o ho
        · rw [List.mem_singleton.1 ho]; exact h3
      · intro hm; cases hm
      · refine ⟨rfl, ?_⟩
        show _ = s.sent.map (·.2)
        rw [h5, List.map_append, List.map_append, h6, hr0]
        simp
      · have := h.infos; simp only [core, e3] at this ⊢; exact this
    · dsimp only
      rw [if_pos hr]
      refine ⟨{ h with
        ids1 := ?_
        ids2 := ?_
        data := ⟨os, rs ++ [r.take (sz + 1)], ⟨?_, h2, ?_⟩, ?_⟩
        infos := ?_ }, fun hc => by cases hc⟩
      · have := h.ids1; simp only [core, e1] at this ⊢; exact this
      · have := h.ids2; simp only [core, e1] at this ⊢; exact this
      · simp only [core, e2, h1, List.append_assoc]
      · intro hm
        rcases List.mem_append.1 hm with hm | hm
        · exact h3 hm
        · exact hr (List.mem_singleton.1 hm).symm
      · simp only [core, Sending]
        refine ⟨front, x, ?_, h6⟩
        rw [h5, List.flatten_append]
        simp
      · have := h.infos; simp only [core, e3] at this ⊢; exact this

theorem inv_open {s : StowData.Sys} (c : Bytes) (hs : s.send = none) (h : Inv g files k m (core s) got) :
    Inv g files k m (core (openNext g c s).1) got := by
  unfold openNext
  cases hg : s.cl.get.drop s.taken with
  | nil => exact h
  | cons cp rest =>
    have ht : s.taken < s.cl.get.length := by
      have := congrArg List.length hg
      simp at this
      omega
    have hcp : s.cl.get[s.taken]? = some cp := by
      have : (s.cl.get.drop s.taken)[0]? = some cp := by rw [hg]; rfl
      rwa [List.getElem?_drop, Nat.add_zero] at this
    have hsl : s.sent.length = s.taken := by
      have := congrArg List.length h.sent
      simp only [core, List.length_map, List.length_take] at this
      omega
    have hsent : ∀ d : Bytes, (s.sent ++ [(cp, d)]).map (·.1) = s.cl.get.take (s.taken + 1) := by
      intro d
      rw [List.map_append, List.take_add_one, hcp, show s.sent.map (·.1) = s.cl.get.take s.taken from h.sent]
      rfl
    have hm := h.mle
    have hml : m ≤ (s.sent.map (·.1)).length := by simpa [core] using hm
    have key : ∀ d : Bytes, (cp.isFile = false → d = g.text) →
        Inv g files k m ⟨s.cl, s.taken + 1, s.ack ++ [cp], some d, s.changed, s.closed, s.up, s.sent ++ [(cp, d)]⟩ got := by
      intro d hd
      have hmap : (s.sent ++ [(cp, d)]).map (·.1) = s.sent.map (·.1) ++ [cp] := by rw [List.map_append]; rfl
      refine { h with
        taken := ht
        sent := hsent d
        data := ?_
        text := ?_
        ack := ?_
        ackf := ?_
        mle := ?_
        changed := ?_
        resp := ?_ }
      · obtain ⟨os, rs, h1, h2⟩ := h.data
        simp only [core, hs, Sending] at h2
        obtain ⟨rfl, h2⟩ := h2
        exact ⟨os, [], h1, s.sent, cp, by simp, h2⟩
      · intro p hp
        rcases List.mem_append.1 hp with hp | hp
        · exact h.text p hp
        · rw [List.mem_singleton.1 hp]; exact hd
      · show s.ack ++ [cp] = ((s.sent ++ [(cp, d)]).map (·.1)).drop m
        rw [hmap, List.drop_append_of_le_length hml, show s.ack = (s.sent.map (·.1)).drop m from h.ack]
      · show ∀ x ∈ ((s.sent ++ [(cp, d)]).map (·.1)).take m, _
        rw [hmap, List.take_append_of_le_length hml]
        exact h.ackf
      · show m ≤ (s.sent ++ [(cp, d)]).length
        rw [List.length_append]
        exact Nat.le_trans hm (Nat.le_add_right _ _)
      · show s.changed = (List.zipWith noted (((s.sent ++ [(cp, d)]).map (·.1)).take m) _).flatten
        rw [hmap, List.take_append_of_le_length hml]
        exact h.changed
      · rcases h.resp with h1 | ⟨h1, x, h2, h3⟩
        · exact .inl h1
        · refine .inr ⟨h1, x, ?_, h3⟩
          have h2 : (s.sent.map (·.1))[m]? = some x := h2
          show ((s.sent ++ [(cp, d)]).map (·.1))[m]? = some x
          rw [hmap, List.getElem?_append_left (List.getElem?_eq_some_iff.1 h2).1]
          exact h2
    dsimp only
    by_cases hf : cp.isFile = false
    · rw [if_pos hf]
      exact key g.text (fun _ => rfl)
    · rw [if_neg hf]
      exact key c (fun hc => absurd hc hf)

theorem inv_info {s s' : StowData.Sys} (h : Inv g files k m (core s) got) (e : sendInfo g s = .ok s') : Inv g files k m (core s') got := by
  unfold sendInfo at e
  cases hi : s.cl.info with
  | none => rw [hi] at e; cases e; exact h
  | some cp =>
    rw [hi] at e
    dsimp only at e
    cases hc : s.closed with
    | true => rw [hc] at e; cases e
    | false =>
      rw [hc] at e
      simp only [Bool.not_false, Res.access_true, Res.ok_bind, Res.ok.injEq] at e
      subst e
      have hcp := h.info cp hi
      have e1 : ∀ n, n ≠ 3 → ∀ ps : List Bytes, sends n (s.up ++ ps.map Msg.info) = sends n s.up := by
        intro n hn ps; rw [sends_append, sends_infos, if_neg hn, List.append_nil]
      refine { h with
        ids1 := ?_
        ids2 := ?_
        data := ?_
        info := ?_
        infos := ?_ }
      · have := h.ids1; simp only [core, e1 1 (by decide)] at this ⊢; exact this
      · have := h.ids2; simp only [core, e1 1 (by decide)] at this ⊢; exact this
      · have := h.data; simp only [core, e1 2 (by decide)] at this ⊢; exact this
      · intro x hx; cases hx
      · have := h.infos
        simp only [core, hc, Bool.false_eq_true, if_false] at this
        simp only [core, if_true]
        rw [sends_append, sends_infos, if_pos rfl, this, hcp]
        rfl

theorem inv_ctl {s s' : StowData.Sys} {b : Bool} (h : Inv g files k m (core s) got) (e : ctl b s = .ok s') : Inv g files k m (core s') got := by
  unfold ctl at e
  simp only [Res.bind_eq_ok, Res.check_eq_ok, exists_const, Res.ok.injEq] at e
  obtain ⟨_, rfl⟩ := e
  exact h

/-! ### Getting -/

/-- What `filter_resp` does to the lists. -/
structure Resp (p : Bytes) (c c' : Stow.Client) : Prop where
  split : ∃ w1, c.wait = w1 ++ c'.wait ∧ (c'.info = c.info ∨ ∃ x ∈ w1, x.isFile = false ∧ x.digest ≠ [] ∧ c'.info = some x) ∧
    ((c'.get = c.get ∧ ¬(16 ≤ p.length ∧ p.length ≤ 64)) ∨ ∃ x, x ∈ w1 ∧ c'.get = c.get ++ [x] ∧ 16 ≤ p.length ∧ p.length ≤ 64 ∧ p <+: x.digest ++ [0] ∧ x.digest ≠ [])
  subj : c'.subj = c.subj

theorem flushAll_resp : ∀ (w w0 : List Item) (c0 c : Stow.Client), c0.wait = w0 ++ w → c.wait = w → c.get = c0.get → c.subj = c0.subj →
    (c.info = c0.info ∨ ∃ x ∈ w0, x.isFile = false ∧ x.digest ≠ [] ∧ c.info = some x) →
    (flushAll w c).wait = [] ∧ (flushAll w c).get = c0.get ∧ (flushAll w c).subj = c0.subj ∧
      ((flushAll w c).info = c0.info ∨ ∃ x ∈ w0 ++ w, x.isFile = false ∧ x.digest ≠ [] ∧ (flushAll w c).info = some x)
  | [], w0, c0, c, h1, h2, h3, h4, h5 => ⟨h2, h3, h4, by rw [List.append_nil]; exact h5⟩
  | x :: w, w0, c0, c, h1, h2, h3, h4, h5 => by
    unfold flushAll
    have := flushAll_resp w (w0 ++ [x]) c0 (subjFlush c x w) (by rw [h1]; simp) rfl h3 h4 (by
      unfold subjFlush
      dsimp only
      by_cases hx : x.isFile = false ∧ x.digest ≠ []
      · rw [if_pos hx]; exact .inr ⟨x, by simp, hx.1, hx.2, rfl⟩
      · rw [if_neg hx]
        rcases h5 with h5 | ⟨y, hy, h5⟩
        · exact .inl h5
        · exact .inr ⟨y, List.mem_append_left _ hy, h5⟩)
    rwa [List.append_assoc] at this

theorem flushN_resp : ∀ (u : Nat) (w w0 : List Item) (c0 c c' : Stow.Client), c0.wait = w0 ++ w → c.wait = w → c.get = c0.get → c.subj = c0.subj →
    (c.info = c0.info ∨ ∃ x ∈ w0, x.isFile = false ∧ x.digest ≠ [] ∧ c.info = some x) → flushN u w c = .ok c' →
    ∃ w1, c0.wait = w1 ++ c'.wait ∧ c'.get = c0.get ∧ c'.subj = c0.subj ∧
      (c'.info = c0.info ∨ ∃ x ∈ w1, x.isFile = false ∧ x.digest ≠ [] ∧ c'.info = some x)
  | 0, w, w0, c0, c, c', h1, h2, h3, h4, h5, e => by
    cases e
    exact ⟨w0, by rw [h2, h1], h3, h4, h5⟩
  | u + 1, [], w0, c0, c, c', h1, h2, h3, h4, h5, e => by cases e
  | u + 1, x :: w, w0, c0, c, c', h1, h2, h3, h4, h5, e => by
    unfold flushN at e
    exact flushN_resp u w (w0 ++ [x]) c0 (subjFlush c x w) c' (by rw [h1]; simp) rfl h3 h4 (by
      unfold subjFlush
      dsimp only
      by_cases hx : x.isFile = false ∧ x.digest ≠ []
      · rw [if_pos hx]; exact .inr ⟨x, by simp, hx.1, hx.2, rfl⟩
      · rw [if_neg hx]
        rcases h5 with h5 | ⟨y, hy, h5⟩
        · exact .inl h5
        · exact .inr ⟨y, List.mem_append_left _ hy, h5⟩) e

theorem flushTo_resp (p : Bytes) (hp : 16 ≤ p.length) : ∀ (w w0 : List Item) (c0 c c' : Stow.Client), c0.wait = w0 ++ w → c.get = c0.get → c.subj = c0.subj →
    (c.info = c0.info ∨ ∃ x ∈ w0, x.isFile = false ∧ x.digest ≠ [] ∧ c.info = some x) → flushTo p w c = .ok c' →
    ∃ w1 x, c0.wait = w1 ++ c'.wait ∧ x ∈ w1 ∧ c'.get = c0.get ++ [x] ∧ p <+: x.digest ++ [0] ∧ x.digest ≠ [] ∧ c'.subj = c0.subj ∧
      (c'.info = c0.info ∨ ∃ x ∈ w1, x.isFile = false ∧ x.digest ≠ [] ∧ c'.info = some x)
  | [], w0, c0, c, c', h1, h3, h4, h5, e => by cases e
  | x :: w, w0, c0, c, c', h1, h3, h4, h5, e => by
    unfold flushTo at e
    by_cases hl : p.length ≤ x.digest.length + 1
    · rw [show decide (p.length ≤ x.digest.length + 1) = true by simpa using hl] at e
      simp only [Res.access_true, Res.ok_bind] at e
      by_cases hx : (x.digest ++ [0]).take p.length = p
      · rw [if_pos hx] at e
        cases e
        refine ⟨w0 ++ [x], x, by rw [h1]; simp, by simp, by simp only; rw [h3], ?_, ?_, h4, ?_⟩
        · rw [← hx]; exact List.take_prefix _ _
        · intro hd; rw [hd] at hl; simp at hl; omega
        · rcases h5 with h5 | ⟨y, hy, h5⟩
          · exact .inl h5
          · exact .inr ⟨y, List.mem_append_left _ hy, h5⟩
      · rw [if_neg hx] at e
        exact flushTo_resp p hp w (w0 ++ [x]) c0 (subjFlush c x w) c' (by rw [h1]; simp) h3 h4 (by
          unfold subjFlush
          dsimp only
          by_cases hx : x.isFile = false ∧ x.digest ≠ []
          · rw [if_pos hx]; exact .inr ⟨x, by simp, hx.1, hx.2, rfl⟩
          · rw [if_neg hx]
            rcases h5 with h5 | ⟨y, hy, h5⟩
            · exact .inl h5
            · exact .inr ⟨y, List.mem_append_left _ hy, h5⟩) e
    · rw [show decide (p.length ≤ x.digest.length + 1) = false by simpa using hl] at e
      cases e

theorem filterResp_resp {p : Bytes} {c c' : Stow.Client} (e : filterResp c p = .ok c') : Resp p c c' := by
  unfold filterResp at e
  by_cases h0 : p.length = 0
  · rw [if_pos h0] at e
    cases e
    obtain ⟨h1, h2, h3, h4⟩ := flushAll_resp c.wait [] c c rfl rfl rfl rfl (.inl rfl)
    exact ⟨⟨c.wait, by rw [h1]; simp, h4, .inl ⟨h2, by omega⟩⟩, h3⟩
  rw [if_neg h0] at e
  by_cases h4 : p.length = 4
  · rw [if_pos h4] at e
    obtain ⟨w1, h1, h2, h3, h5⟩ := flushN_resp _ c.wait [] c c c' rfl rfl rfl rfl (.inl rfl) e
    exact ⟨⟨w1, h1, h5, .inl ⟨h2, by omega⟩⟩, h3⟩
  rw [if_neg h4] at e
  by_cases h5 : 16 ≤ p.length ∧ p.length ≤ 64
  · rw [if_pos h5] at e
    obtain ⟨w1, x, h1, h2, h3, h6, h7, h8, h9⟩ := flushTo_resp p h5.1 c.wait [] { c with idSize := p.length } _ c' rfl rfl rfl (.inl rfl) e
    exact ⟨⟨w1, h1, h9, .inr ⟨x, h2, h3, h5.1, h5.2, h6, h7⟩⟩, h8⟩
  · rw [if_neg h5] at e
    cases e

theorem mtree_of (ok : FilesOk g files) {x : Item} (h : x ∈ items g files) (h1 : x.isFile = false) (h2 : x.digest ≠ []) : x = ⟨false, [], g.sha g.text⟩ := by
  rcases List.mem_append.1 h with h | h
  · rw [ok.files x h] at h1; cases h1
  · simp only [List.mem_cons, List.not_mem_nil, or_false] at h
    rcases h with h | h
    · exact h
    · rw [h] at h2; exact absurd rfl h2

theorem inv_filter (ok : FilesOk g files) {s : StowData.Sys} {c' : Stow.Client} {p : Bytes} (h : Inv g files k m (core s) got) (e : filterResp s.cl p = .ok c') :
    ∃ k', Inv g files k' m (core { s with cl := c' }) (got ++ [(1, p)]) := by
  obtain ⟨⟨w1, h1, h2, h3⟩, h4⟩ := filterResp_resp e
  have hr := h.rest
  simp only [core, h1, List.append_assoc] at hr
  have hk : (items g files).take (k + w1.length) = (items g files).take k ++ w1 := by
    rw [List.take_add, ← hr, List.take_left]
  have hw : ∀ x ∈ w1, x ∈ items g files := fun x hx => List.mem_of_mem_drop (i := k) (by rw [← hr]; exact List.mem_append_left _ hx)
  have hgl : s.cl.get <+: c'.get := by
    rcases h3 with ⟨h3, _⟩ | ⟨x, _, h3, _⟩
    · rw [h3]; exact List.prefix_refl _
    · rw [h3]; exact List.prefix_append _ _
  refine ⟨k + w1.length, { h with
    rest := ?_
    get := ?_
    noend := ?_
    ids1 := ?_
    asks1 := ?_
    asks2 := ?_
    taken := ?_
    sent := ?_
    changed := ?_
    resp := ?_
    info := ?_ }⟩
  · show c'.wait ++ c'.subj = _
    rw [h4, ← List.drop_drop, ← hr, List.drop_left]
  · show c'.get.Sublist _
    rw [hk]
    rcases h3 with ⟨h3, _⟩ | ⟨x, hx, h3, _⟩
    · rw [h3]; exact h.get.trans (List.sublist_append_left _ _)
    · rw [h3]; exact h.get.append (List.singleton_sublist.2 hx)
  · show ∀ x ∈ c'.get, _
    rcases h3 with ⟨h3, _⟩ | ⟨x, hx, h3, _, _, _, h5⟩
    · rw [h3]; exact h.noend
    · rw [h3]; intro y hy
      rcases List.mem_append.1 hy with hy | hy
      · exact h.noend y hy
      · rw [List.mem_singleton.1 hy]; exact h5
  · show _ + c'.subj.length = _
    rw [h4]; exact h.ids1
  · show (asks _).length = c'.get.length
    have h5 := h.asks1
    rw [asks_snoc]
    rcases h3 with ⟨h3, h6⟩ | ⟨x, hx, h3, h6, h7, _⟩
    · rw [h3, if_neg (fun hc => h6 hc.2), List.append_nil]; exact h5
    · rw [h3, if_pos ⟨rfl, h6, h7⟩, List.length_append, List.length_append, h5]; rfl
  · show ∀ i x q, c'.get[i]? = some x → _
    rcases h3 with ⟨h3, h6⟩ | ⟨x, hx, h3, h6, h7, h8, _⟩
    · rw [h3, asks_snoc, if_neg (fun hc => h6 hc.2), List.append_nil]; exact h.asks2
    · rw [h3, asks_snoc, if_pos ⟨rfl, h6, h7⟩]
      intro i y q hy hq
      have h5 := h.asks1
      simp only [core] at h5
      by_cases hi : i < s.cl.get.length
      · rw [List.getElem?_append_left hi] at hy
        rw [List.getElem?_append_left (by omega)] at hq
        exact h.asks2 i y q hy hq
      · rw [List.getElem?_append_right (by omega)] at hy hq
        rw [h5] at hq
        have : i - s.cl.get.length = 0 := by
          rcases Nat.eq_zero_or_pos (i - s.cl.get.length) with h | h
          · exact h
          · rw [List.getElem?_eq_none (by simp only [List.length_singleton]; omega)] at hy; cases hy
        rw [this] at hy hq
        cases hy; cases hq
        exact h8
  · show s.taken ≤ c'.get.length
    exact Nat.le_trans h.taken hgl.length_le
  · show s.sent.map (·.1) = c'.get.take s.taken
    obtain ⟨t, ht⟩ := hgl
    rw [← ht, List.take_append_of_le_length (show s.taken ≤ s.cl.get.length from h.taken)]
    exact h.sent
  · have := h.changed
    rw [payloads_snoc, if_neg (by decide), List.append_nil]; exact this
  · have := h.resp
    rw [payloads_snoc, if_neg (by decide), List.append_nil]; exact this
  · show ∀ x, c'.info = some x → _
    intro x hx
    rcases h2 with h2 | ⟨y, hy, h5, h6, h2⟩
    · rw [h2] at hx; exact h.info x hx
    · rw [h2] at hx
      cases hx
      exact mtree_of ok (hw _ hy) h5 h6

theorem ack_item {s : StowData.Sys} {cp : Item} {rest : List Item} (h : Inv g files k m (core s) got) (ha : s.ack = cp :: rest) :
    (s.sent.map (·.1))[m]? = some cp ∧ cp ∈ s.cl.get ∧ cp ∈ items g files ∧ rest = (s.sent.map (·.1)).drop (m + 1) ∧ m < s.sent.length := by
  have h1 : (s.sent.map (·.1)).drop m = cp :: rest := by have := h.ack; simp only [core] at this; rw [← this, ha]
  have h2 : (s.sent.map (·.1))[m]? = some cp := by
    have : ((s.sent.map (·.1)).drop m)[0]? = some cp := by rw [h1]; rfl
    rwa [List.getElem?_drop, Nat.add_zero] at this
  have h3 : cp ∈ s.cl.get := by
    have h4 := List.mem_of_getElem? h2
    have h5 : s.sent.map (·.1) = s.cl.get.take s.taken := h.sent
    rw [h5] at h4
    exact List.mem_of_mem_take h4
  refine ⟨h2, h3, List.mem_of_mem_take (h.get.subset h3), ?_, ?_⟩
  · rw [← List.drop_drop, h1]; rfl
  · have := (List.getElem?_eq_some_iff.1 h2).1
    simpa using this

theorem inv_data (ok : FilesOk g files) {s s' : StowData.Sys} {p : Bytes} (h : Inv g files k m (core s) got) (e : dataResp s p = .ok s') :
    ∃ m', Inv g files k m' (core s') (got ++ [(2, p)]) := by
  unfold dataResp at e
  cases ha : s.ack with
  | nil => rw [ha] at e; cases e
  | cons cp rest =>
    rw [ha] at e
    dsimp only at e
    cases hp : afterSlash (cstr p) with
    | none => rw [hp] at e; cases e
    | some pp =>
      rw [hp] at e
      dsimp only at e
      obtain ⟨h1, h2, h3, h4, h5⟩ := ack_item h ha
      have hpay : payloads 2 (got ++ [(2, p)]) = payloads 2 got ++ [p] := by rw [payloads_snoc, if_pos rfl]
      have hask : asks (got ++ [(2, p)]) = asks got := by rw [asks_snoc, if_neg (by omega), List.append_nil]
      have a1 : (asks (got ++ [(2, p)])).length = s.cl.get.length := by rw [hask]; exact h.asks1
      have a2 : ∀ (i : Nat) (x : Item) (q : Bytes), s.cl.get[i]? = some x → (asks (got ++ [(2, p)]))[i]? = some q → q <+: x.digest ++ [0] := by rw [hask]; exact h.asks2
      by_cases hm : cp.isFile = false ∧ cp.digest ≠ []
      · rw [if_pos hm] at e
        simp only [Res.bind_eq_ok, Res.check_eq_ok, exists_const] at e
        obtain ⟨_, e⟩ := e
        rw [← ha] at e
        refine ⟨m, inv_ctl (s := { s with cl := { s.cl with info := some cp } }) ?_ e⟩
        have hcm := mtree_of ok h3 hm.1 hm.2
        have hle : m ≤ (payloads 2 got).length := by rcases h.resp with h | h <;> omega
        refine { h with
          asks1 := a1
          asks2 := a2
          changed := ?_
          resp := ?_
          info := ?_ }
        · show s.changed = _
          rw [hpay, List.take_append_of_le_length hle]
          exact h.changed
        · rw [hpay, List.length_append, List.length_singleton]
          exact .inr ⟨by omega, cp, h1, hm.1⟩
        · intro x hx
          cases hx
          exact hcm
      · rw [if_neg hm] at e
        have hf : cp.isFile = true := by
          cases hcf : cp.isFile with
          | true => rfl
          | false => exact absurd ⟨hcf, h.noend cp h2⟩ hm
        have hr : (payloads 2 got).length = m := by
          rcases h.resp with h6 | ⟨_, x, h6, h7⟩
          · exact h6
          · have h6' : (s.sent.map (·.1))[m]? = some x := h6
            rw [h1] at h6'
            cases h6'
            rw [hf] at h7; cases h7
        have hlm : m < (s.sent.map (·.1)).length := by simpa using h5
        have htake : (s.sent.map (·.1)).take (m + 1) = (s.sent.map (·.1)).take m ++ [cp] := by
          rw [List.take_add_one, h1]; rfl
        have hz : (List.zipWith noted ((s.sent.map (·.1)).take (m + 1)) ((payloads 2 (got ++ [(2, p)])).take (m + 1))).flatten = s.changed ++ noted cp p := by
          have hc : s.changed = _ := h.changed
          rw [hc, htake, hpay, List.take_of_length_le (by simp; omega : (payloads 2 got ++ [p]).length ≤ m + 1),
            List.zipWith_append (by rw [List.length_take, hr]; exact Nat.min_eq_left (Nat.le_of_lt hlm)), List.flatten_append,
            List.take_of_length_le (Nat.le_of_eq hr)]
          show _ ++ (noted cp p ++ []) = _
          rw [List.append_nil]
          rfl
        have key : ∀ ch : Bytes, ch = s.changed ++ noted cp p → (sends 3 s.up = if s.closed then metaMsgs g (g.sha g.text) ch else []) →
            Inv g files k (m + 1) (core { s with
              ack := rest
              changed := ch }) (got ++ [(2, p)]) := by
          intro ch hch hin
          refine { h with
            asks1 := a1
            asks2 := a2
            ack := h4
            ackf := ?_
            mle := h5
            changed := ?_
            resp := .inl (by rw [hpay, List.length_append, hr]; rfl)
            infos := hin }
          · show ∀ x ∈ (s.sent.map (·.1)).take (m + 1), _
            rw [htake]
            intro x hx
            rcases List.mem_append.1 hx with hx | hx
            · exact h.ackf x hx
            · rw [List.mem_singleton.1 hx]; exact hf
          · show ch = _
            rw [hch]
            exact hz.symm
        by_cases hpre : pp.isPrefixOf cp.digest = true
        · rw [if_pos hpre] at e
          refine ⟨m + 1, inv_ctl (s := { s with ack := rest }) ?_ e⟩
          have hn : noted cp p = [] := by unfold noted; rw [hp]; simp only [hpre, if_true]
          exact key s.changed (by rw [hn, List.append_nil]) h.infos
        · rw [if_neg hpre] at e
          cases hc : s.closed with
          | true => rw [hc, Bool.not_true, Bool.and_false] at e; cases e
          | false =>
            rw [hc, hf] at e
            simp only [Bool.not_false, Bool.and_true, Res.access_true, Res.ok_bind] at e
            refine ⟨m + 1, inv_ctl (s := { s with
              ack := rest
              closed := false
              changed := s.changed ++ changedEntry cp.digest pp }) ?_ e⟩
            have hn : noted cp p = changedEntry cp.digest pp := by unfold noted; rw [hp]; simp only [hpre]; rfl
            have hin : sends 3 s.up = if s.closed then metaMsgs g (g.sha g.text) s.changed else [] := h.infos
            have := key (s.changed ++ changedEntry cp.digest pp) (by rw [hn]) (by rw [hc] at hin ⊢; exact hin)
            simp only [core, hc] at this ⊢
            exact this

/-! ### Runs -/

theorem inv_got0 {c : Core} {got : List (Nat × Bytes)} {n : Nat} {p : Bytes} (h1 : n ≠ 1) (h2 : n ≠ 2) (h : Inv g files k m c got) : Inv g files k m c (got ++ [(n, p)]) := by
  have ha : asks (got ++ [(n, p)]) = asks got := by rw [asks_snoc, if_neg (by omega), List.append_nil]
  have hp : payloads 2 (got ++ [(n, p)]) = payloads 2 got := by rw [payloads_snoc, if_neg h2, List.append_nil]
  refine { h with
    asks1 := by rw [ha]; exact h.asks1
    asks2 := by rw [ha]; exact h.asks2
    changed := by rw [hp]; exact h.changed
    resp := by rw [hp]; exact h.resp }

theorem inv_out {s s' : StowData.Sys} {sz : Nat} {d : Bytes} (h : Inv g files k m (core s) got) (e : StowData.out g (sz + 1) d s = .ok s') : Inv g files k m (core s') got := by
  unfold StowData.out at e
  dsimp only at e
  have h1 := inv_piece sz (inv_ids (min 10 s.avail) h)
  generalize sendPiece (sz + 1) (sendIds (min 10 s.avail) s) = r at e h1
  by_cases hr : r.2 = false
  · rw [if_pos hr] at e
    cases e
    exact h1.1
  · rw [if_neg hr] at e
    by_cases ha : 0 < r.1.avail
    · rw [if_pos ha] at e
      cases e
      exact h1.1
    · have h2 := inv_open d (h1.2 (by simpa using hr)) h1.1
      rw [if_neg ha] at e
      generalize openNext g d r.1 = q at e h2
      by_cases hq : q.2 = false
      · rw [if_pos hq] at e
        cases e
        exact h2
      · rw [if_neg hq] at e
        simp only [Res.bind_eq_ok] at e
        obtain ⟨s2, h3, h4⟩ := e
        exact inv_ctl (inv_info h2 h3) h4

/-- The invariant for a client. -/
def Good (g : Cfg) (files : List Item) (c : Cl) : Prop := ∃ k m, Inv g files k m (core c.sys) c.got

theorem good_step (ok : FilesOk g files) {c : Cl} {e : StowAny.Ev} {o : Out} (h : Good g files c) (he : StowAny.step g c e = some o) : ∀ c', lastCl o = some c' → Good g files c' := by
  obtain ⟨k, m, h⟩ := h
  have hof : ∀ {got : List (Nat × Bytes)} {r : Res StowData.Sys}, (∀ s', r = .ok s' → ∃ k m, Inv g files k m (core s') got) → ∀ c', lastCl (StowAny.ofRes c got r) = some c' → Good g files c' := by
    intro got r hr c' hc
    cases r with
    | ok s' => cases hc; exact hr s' rfl
    | fail => cases hc; exact ⟨k, m, h⟩
    | ub => cases hc
  cases e with
  | out sz file =>
    simp only [StowAny.step] at he
    split at he
    · cases he
      unfold StowAny.out
      dsimp only
      split
      · intro c' hc
        cases hc
        exact ⟨k, m, (inv_piece sz (inv_ids (min 10 c.sys.avail) h)).1⟩
      · exact hof (fun s' hs => ⟨k, m, inv_out h hs⟩)
    · cases he
  | hup =>
    simp only [StowAny.step] at he
    split at he
    · cases he
      exact hof (fun s' hs => ⟨k, m, inv_ctl h hs⟩)
    · cases he
  | mtree =>
    simp only [StowAny.step] at he
    split at he
    · cases he
      refine hof (fun s' hs => ⟨k, m, ?_⟩)
      unfold StowData.mtree at hs
      exact inv_ctl (by exact h) hs
    · cases he
  | lost =>
    cases he
    intro c' hc
    cases hc
    exact ⟨k, m, h⟩
  | inn i =>
    simp only [StowAny.step] at he
    split at he
    · cases he
      cases i with
      | eof => intro c' hc; cases hc; exact ⟨k, m, h⟩
      | cut => intro c' hc; cases hc; exact ⟨k, m, h⟩
      | msg cmd p =>
        simp only [StowAny.inn]
        split
        · intro c' hc; cases hc; exact ⟨k, m, h⟩
        split
        · rename_i h0
          intro c' hc; cases hc
          exact ⟨k, m, inv_got0 (by omega) (by omega) h⟩
        split
        · rename_i h1
          subst h1
          refine hof (fun s' hs => ?_)
          simp only [StowData.inn, Res.bind_eq_ok, Res.check_eq_ok, exists_const] at hs
          obtain ⟨_, c1, h2, h3⟩ := hs
          obtain ⟨k', h4⟩ := inv_filter ok h h2
          exact ⟨k', m, inv_ctl (s := { c.sys with
            cl := c1
            down := [] }) h4 h3⟩
        split
        · rename_i h1
          subst h1
          refine hof (fun s' hs => ?_)
          simp only [StowData.inn, Res.bind_eq_ok, Res.check_eq_ok, exists_const] at hs
          obtain ⟨_, h2⟩ := hs
          obtain ⟨m', h4⟩ := inv_data ok (s := { c.sys with down := [] }) h h2
          exact ⟨k, m', h4⟩
        split
        · rename_i h1
          subst h1
          refine hof (fun s' hs => ?_)
          simp only [StowData.inn, Res.bind_eq_ok, Res.check_eq_ok, exists_const, Res.ok.injEq] at hs
          obtain ⟨_, _, rfl⟩ := hs
          exact ⟨k, m, inv_got0 (by omega) (by omega) h⟩
        · rename_i h1 h2 h3
          intro c' hc; cases hc
          exact ⟨k, m, inv_got0 (by omega) (by omega) h⟩
    · cases he

theorem good_run (ok : FilesOk g files) : ∀ {es : List StowAny.Ev} {c : Cl} {o : Out}, Good g files c → StowAny.run g c es = some o → ∀ c', lastCl o = some c' → Good g files c'
  | [], c, o, h, hr => by
    cases hr
    intro c' hc
    cases hc
    exact h
  | e :: es, c, o, h, hr => by
    unfold StowAny.run at hr
    cases he : StowAny.step g c e with
    | none => rw [he] at hr; cases hr
    | some o1 =>
      have h1 := good_step ok h he
      rw [he] at hr
      cases o1 with
      | go c1 => exact good_run ok (h1 c1 rfl) hr
      | exit c1 => cases hr; exact h1
      | abort c1 => cases hr; exact h1
      | ub => cases hr; exact h1

/-! ### What the server can learn and cause -/

/-- **C88** (IDs).  What the client asks about is the listed items, in order, each once and by a part of its digest. -/
theorem C88_ids (ok : FilesOk g files) {es : List StowAny.Ev} {o : Out} {c : Cl} (hr : StowAny.run g (StowAny.start g files) es = some o) (ho : lastCl o = some c) :
    (sends 1 c.sys.up).length ≤ (items g files).length ∧
      ∀ (i : Nat) (p : Bytes), (sends 1 c.sys.up)[i]? = some p → ∃ x, (items g files)[i]? = some x ∧ p <+: x.digest := by
  obtain ⟨k, m, h⟩ := good_run ok ⟨0, 0, inv_start g files⟩ hr c ho
  have := h.ids1
  simp only [core] at this
  exact ⟨by omega, h.ids2⟩

/-- **C88** (files).  The files of which contents are sent are listed ones, each is opened at most once and in the order of the listing, and only if the server has asked for it: the first file opened is one
whose digest begins with the first ID that the server sent (16 to 64 bytes), and so on.  What is sent are their contents, one file after the other and each with an end, but for the last one, of which there may be only a part so far. -/
theorem C88_files (ok : FilesOk g files) {es : List StowAny.Ev} {o : Out} {c : Cl} (hr : StowAny.run g (StowAny.start g files) es = some o) (ho : lastCl o = some c) :
    (c.sys.sent.map (·.1)).Sublist (items g files) ∧
      (∀ (i : Nat) (x : Item) (d : Bytes), c.sys.sent[i]? = some (x, d) → ∃ p, (asks c.got)[i]? = some p ∧ p <+: x.digest ++ [0] ∧ (x.isFile = false → d = g.text)) ∧
      ∃ os rest, Pieces (sends 2 c.sys.up) os rest ∧
        ((rest = [] ∧ os.map List.flatten = c.sys.sent.map (·.2)) ∨
          ∃ front x d, c.sys.sent = front ++ [(x, d)] ∧ os.map List.flatten = front.map (·.2) ∧ rest.flatten <+: d) := by
  obtain ⟨k, m, h⟩ := good_run ok ⟨0, 0, inv_start g files⟩ hr c ho
  have hs : c.sys.sent.map (·.1) = c.sys.cl.get.take c.sys.taken := h.sent
  have hg : c.sys.cl.get.Sublist ((items g files).take k) := h.get
  refine ⟨?_, ?_, ?_⟩
  · rw [hs]
    exact (List.take_sublist _ _).trans (hg.trans (List.take_sublist _ _))
  · intro i x d hi
    have h1 : (c.sys.sent.map (·.1))[i]? = some x := by rw [List.getElem?_map, hi]; rfl
    rw [hs] at h1
    have h2 : c.sys.cl.get[i]? = some x := by
      rw [List.getElem?_take] at h1
      split at h1
      · exact h1
      · cases h1
    have h3 : i < (asks c.got).length := by
      have h4 : (asks c.got).length = c.sys.cl.get.length := h.asks1
      rw [h4]
      exact (List.getElem?_eq_some_iff.1 h2).1
    exact ⟨_, List.getElem?_eq_getElem h3, h.asks2 i x _ h2 (List.getElem?_eq_getElem h3), h.text (x, d) (List.mem_of_getElem? hi)⟩
  · obtain ⟨os, rest, h1, h2⟩ := h.data
    refine ⟨os, rest, h1, ?_⟩
    simp only [core] at h2
    cases hse : c.sys.send with
    | none => rw [hse] at h2; exact .inl h2
    | some r =>
      rw [hse] at h2
      obtain ⟨front, x, h3, h4⟩ := h2
      exact .inr ⟨front, x, _, h3, h4, List.prefix_append _ _⟩

/-- The files among the items that were sent. -/
theorem sent_split (ok : FilesOk g files) {c : Core} (h : Inv g files k m c got) :
    ∃ a b, c.sent.map (·.1) = a ++ b ∧ (∀ x ∈ a, x.isFile = true) ∧ (∀ x ∈ b, x.isFile = false) := by
  have h1 : (c.sent.map (·.1)).Sublist (items g files) := by
    rw [h.sent]
    exact (List.take_sublist _ _).trans (h.get.trans (List.take_sublist _ _))
  unfold items at h1
  obtain ⟨a, b, h2, h3, h4⟩ := List.sublist_append_iff.1 h1
  refine ⟨a, b, h2, fun x hx => ok.files x (h3.subset hx), ?_⟩
  intro x hx
  have := h4.subset hx
  simp only [List.mem_cons, List.not_mem_nil, or_false] at this
  rcases this with rfl | rfl <;> rfl

/-- **C88** (metadata).  Metadata is sent at most once.  It is about the output of mtree, and notes exactly the files for which the server has named another ID than that of the listing: the first answer is
for the first file that was sent, and so on. -/
theorem C88_metadata (ok : FilesOk g files) {es : List StowAny.Ev} {o : Out} {c : Cl} (hr : StowAny.run g (StowAny.start g files) es = some o) (ho : lastCl o = some c) :
    sends 3 c.sys.up = [] ∨
      sends 3 c.sys.up = metaMsgs g (g.sha g.text) (List.zipWith noted ((c.sys.sent.map (·.1)).filter (·.isFile)) (payloads 2 c.got)).flatten := by
  obtain ⟨k, m, h⟩ := good_run ok ⟨0, 0, inv_start g files⟩ hr c ho
  have hi : sends 3 c.sys.up = if c.sys.closed then metaMsgs g (g.sha g.text) c.sys.changed else [] := h.infos
  cases hc : c.sys.closed with
  | false => rw [hc] at hi; exact .inl hi
  | true =>
    rw [hc] at hi
    right
    rw [hi, if_pos rfl]
    congr 1
    have hch : c.sys.changed = _ := h.changed
    rw [hch]
    congr 1
    obtain ⟨a, b, h1, h2, h3⟩ := sent_split ok h
    have hf : (c.sys.sent.map (·.1)).filter (·.isFile) = a := by
      rw [show c.sys.sent.map (·.1) = a ++ b from h1, List.filter_append, List.filter_eq_self.2 h2, List.filter_eq_nil_iff.2 (fun x hx => by rw [h3 x hx]; decide), List.append_nil]
    rw [hf]
    have hm : m ≤ a.length := by
      rcases Nat.lt_or_ge a.length m with hlt | hge
      · exfalso
        have hl : m ≤ (c.sys.sent.map (·.1)).length := by rw [List.length_map]; exact h.mle
        rw [show c.sys.sent.map (·.1) = a ++ b from h1] at hl
        have hb : 0 < b.length := by rw [List.length_append] at hl; omega
        have h4 : (a ++ b)[a.length]? = some b[0] := by rw [List.getElem?_append_right (Nat.le_refl _), Nat.sub_self, List.getElem?_eq_getElem hb]
        have h5 : b[0] ∈ (a ++ b).take m := by
          apply List.mem_of_getElem? (i := a.length)
          rw [List.getElem?_take, if_pos hlt, h4]
        have h6 := h.ackf b[0] (by rw [h1]; exact h5)
        rw [h3 _ (List.getElem_mem hb)] at h6
        cases h6
      · exact hge
    have hta : ((core c.sys).sent.map (·.1)).take m = a.take m := by rw [h1, List.take_append_of_le_length hm]
    rw [hta]
    rcases h.resp with h4 | ⟨h4, x, h5, h6⟩
    · rw [List.take_of_length_le (Nat.le_of_eq h4), ← h4]
      apply List.ext_getElem?
      intro i
      rw [List.getElem?_zipWith, List.getElem?_zipWith, List.getElem?_take]
      by_cases hi : i < (payloads 2 c.got).length
      · rw [if_pos hi]
      · rw [if_neg hi, List.getElem?_eq_none (by omega : (payloads 2 c.got).length ≤ i)]
        cases a[i]? <;> rfl
    · have hma : m = a.length := by
        rcases Nat.lt_or_ge m a.length with hlt | hge
        · rw [h1, List.getElem?_append_left hlt] at h5
          have := h2 x (List.mem_of_getElem? h5)
          rw [h6] at this
          cases this
        · omega
      rw [hma, List.take_length]
      apply List.ext_getElem?
      intro i
      rw [List.getElem?_zipWith, List.getElem?_zipWith, List.getElem?_take]
      by_cases hi : i < a.length
      · rw [if_pos hi]
      · rw [List.getElem?_eq_none (by omega : a.length ≤ i)]

/-! ### Memory -/

/-- What the client expects of a server: an ID that it asks for is that of an item it has been asked about and has not answered yet, and it confirms no file after it got the metadata. -/
def Fair (c : Cl) : StowAny.Ev → Prop
  | .inn (.msg n p) =>
    (n = 1 → 16 ≤ p.length → p.length ≤ 64 → ∃ x ∈ c.sys.cl.wait, x.digest ≠ [] ∧ p <+: x.digest ++ [0]) ∧
    (n = 2 → sends 3 c.sys.up = [])
  | _ => True

/-- A run in which the server does so. -/
def RunFair (g : Cfg) (c : Cl) : List StowAny.Ev → Prop
  | [] => True
  | e :: es => Fair c e ∧ ∀ c', StowAny.step g c e = some (.go c') → RunFair g c' es

/-- The item for the output of mtree is used only once. -/
structure Mem (cl : Stow.Client) (closed : Bool) : Prop where
  once : closed = true → cl.info = none
  last : (closed = true ∨ cl.info ≠ none ∨ ∃ x ∈ cl.get, x.isFile = false) → ∀ y ∈ cl.wait ++ cl.subj, y.digest = []

theorem mem_ids : ∀ (j : Nat) {s : StowData.Sys}, Mem s.cl s.closed → Mem (sendIds j s).cl (sendIds j s).closed ∧ (sendIds j s).send = s.send
  | 0, s, h => ⟨h, rfl⟩
  | j + 1, s, h => by
    unfold sendIds
    cases hs : s.cl.subj with
    | nil => exact ⟨h, rfl⟩
    | cons cp rest =>
      refine mem_ids j (s := { s with
        cl := { s.cl with
          subj := rest
          wait := s.cl.wait ++ [cp] }
        avail := s.avail - 1
        up := s.up ++ [.filter (cp.digest.take s.cl.idSize)] }) ⟨h.once, ?_⟩
      intro hx y hy
      refine h.last hx y ?_
      rw [hs]
      simpa using hy

theorem mem_piece (sz : Nat) (s : StowData.Sys) : (sendPiece sz s).1.cl = s.cl ∧ (sendPiece sz s).1.closed = s.closed := by
  unfold sendPiece
  split
  · exact ⟨rfl, rfl⟩
  · dsimp only
    split <;> exact ⟨rfl, rfl⟩

theorem mem_open (d : Bytes) (s : StowData.Sys) : (openNext g d s).1.cl = s.cl ∧ (openNext g d s).1.closed = s.closed := by
  unfold openNext
  split
  · exact ⟨rfl, rfl⟩
  · dsimp only
    split <;> exact ⟨rfl, rfl⟩

theorem mem_info {s : StowData.Sys} (h : Mem s.cl s.closed) : sendInfo g s ≠ .ub ∧ ∀ s', sendInfo g s = .ok s' → Mem s'.cl s'.closed := by
  unfold sendInfo
  cases hi : s.cl.info with
  | none => exact ⟨by simp, fun s' e => by cases e; exact h⟩
  | some cp =>
    dsimp only
    cases hc : s.closed with
    | true => have := h.once hc; rw [hi] at this; cases this
    | false =>
      simp only [Bool.not_false, Res.access_true, Res.ok_bind]
      refine ⟨by simp, fun s' e => ?_⟩
      cases e
      exact ⟨fun _ => rfl, fun _ => h.last (.inr (.inl (by rw [hi]; simp)))⟩

theorem mem_ctl {s : StowData.Sys} {b : Bool} (h : Mem s.cl s.closed) : ctl b s ≠ .ub ∧ ∀ s', ctl b s = .ok s' → Mem s'.cl s'.closed := by
  unfold ctl
  cases hg : s.gone with
  | true => exact ⟨by simp [Res.check], fun s' e => by cases e⟩
  | false =>
    simp only [Bool.not_false, Res.check_true, Res.ok_bind]
    exact ⟨by simp, fun s' e => by cases e; exact h⟩

theorem mem_out {s : StowData.Sys} {sz : Nat} {d : Bytes} (h : Mem s.cl s.closed) :
    StowData.out g sz d s ≠ .ub ∧ (∀ s', StowData.out g sz d s = .ok s' → Mem s'.cl s'.closed) ∧
      Mem (sendPiece sz (sendIds (min 10 s.avail) s)).1.cl (sendPiece sz (sendIds (min 10 s.avail) s)).1.closed := by
  unfold StowData.out
  dsimp only
  have h1 := (mem_ids (min 10 s.avail) h).1
  have h2 := mem_piece sz (sendIds (min 10 s.avail) s)
  generalize sendPiece sz (sendIds (min 10 s.avail) s) = r at h2 ⊢
  have h3 : Mem r.1.cl r.1.closed := by rw [h2.1, h2.2]; exact h1
  refine ⟨?_, ?_, h3⟩
  · split
    · simp
    · split
      · simp
      · have h4 := mem_open (g := g) d r.1
        generalize openNext g d r.1 = q at h4 ⊢
        have h5 : Mem q.1.cl q.1.closed := by rw [h4.1, h4.2]; exact h3
        split
        · simp
        · have h6 := mem_info (g := g) h5
          cases h7 : sendInfo g q.1 with
          | ok s2 => exact (mem_ctl (h6.2 s2 h7)).1
          | fail => simp
          | ub => exact absurd h7 h6.1
  · intro s' e
    split at e
    · cases e; exact h3
    · split at e
      · cases e; exact h3
      · have h4 := mem_open (g := g) d r.1
        generalize openNext g d r.1 = q at h4 e
        have h5 : Mem q.1.cl q.1.closed := by rw [h4.1, h4.2]; exact h3
        split at e
        · cases e; exact h5
        · simp only [Res.bind_eq_ok] at e
          obtain ⟨s2, h7, h8⟩ := e
          exact (mem_ctl ((mem_info (g := g) h5).2 s2 h7)).2 s' h8

theorem flushTo_safe (p : Bytes) : ∀ (w1 : List Item) {x : Item} {w2 : List Item} {c : Stow.Client}, (∀ y ∈ w1, p.length ≤ y.digest.length + 1) → p <+: x.digest ++ [0] →
    flushTo p (w1 ++ x :: w2) c ≠ .ub
  | [], x, w2, c, _, h => by
    have h1 := h.length_le
    rw [List.length_append, List.length_singleton] at h1
    rw [List.nil_append]
    unfold flushTo
    rw [show decide (p.length ≤ x.digest.length + 1) = true by simpa using h1]
    simp only [Res.access_true, Res.ok_bind]
    rw [if_pos (List.prefix_iff_eq_take.1 h).symm]
    simp
  | y :: w1, x, w2, c, hy, h => by
    rw [List.cons_append]
    unfold flushTo
    rw [show decide (p.length ≤ y.digest.length + 1) = true by simpa using hy y (List.mem_cons_self ..)]
    simp only [Res.access_true, Res.ok_bind]
    split
    · simp
    · exact flushTo_safe p w1 (fun z hz => hy z (List.mem_cons_of_mem _ hz)) h

theorem flushN_safe : ∀ (u : Nat) (w : List Item) (c : Stow.Client), flushN u w c ≠ .ub
  | 0, _, _ => by simp [flushN]
  | _ + 1, [], _ => by simp [flushN]
  | u + 1, x :: w, c => by unfold flushN; exact flushN_safe u w _

/-- The digests have 63 bytes or more. -/
structure Digests (g : Cfg) (files : List Item) : Prop where
  files : ∀ x ∈ files, 63 ≤ x.digest.length
  sha : 63 ≤ (g.sha g.text).length

/-- What comes behind the output of mtree is the end mark. -/
theorem behind (ok : FilesOk g files) {a b : List Item} {x : Item} (h : a ++ x :: b = (items g files).drop k) (hx : x.isFile = false) : (∀ y ∈ b, y.digest = []) ∧ (x.digest = [] → b = []) := by
  have hs : (items g files) = ((items g files).take k ++ a) ++ x :: b := by rw [List.append_assoc, h, List.take_append_drop]
  generalize (items g files).take k ++ a = l at hs
  unfold items at hs
  rcases List.append_eq_append_iff.1 hs with ⟨t, h1, h2⟩ | ⟨t, h1, h2⟩
  · cases t with
    | nil =>
      simp only [List.nil_append, List.cons.injEq] at h2
      obtain ⟨rfl, rfl⟩ := h2
      exact ⟨by intro y hy; rw [List.mem_singleton.1 hy], fun hd => absurd hd ok.sha⟩
    | cons t0 t =>
      simp only [List.cons_append, List.cons.injEq] at h2
      obtain ⟨rfl, h2⟩ := h2
      cases t with
      | nil =>
        simp only [List.nil_append, List.cons.injEq] at h2
        obtain ⟨rfl, rfl⟩ := h2
        exact ⟨by simp, fun _ => rfl⟩
      | cons t1 t => simp at h2
  · cases t with
    | nil =>
      simp only [List.nil_append, List.cons.injEq] at h2
      obtain ⟨rfl, rfl⟩ := h2
      exact ⟨by intro y hy; rw [List.mem_singleton.1 hy], fun hd => absurd hd ok.sha⟩
    | cons t0 t =>
      simp only [List.cons_append, List.cons.injEq] at h2
      have : x ∈ files := by rw [h1, h2.1]; simp
      rw [ok.files x this] at hx
      cases hx

theorem filter_safe (ok : FilesOk g files) (dg : Digests g files) {s : StowData.Sys} (h : Inv g files k m (core s) got) {p : Bytes}
    (hf : 16 ≤ p.length → p.length ≤ 64 → ∃ x ∈ s.cl.wait, x.digest ≠ [] ∧ p <+: x.digest ++ [0]) : filterResp s.cl p ≠ .ub := by
  unfold filterResp
  split
  · simp
  split
  · exact flushN_safe _ _ _
  split
  · rename_i h1
    obtain ⟨x, hx, hd, hp⟩ := hf h1.1 h1.2
    obtain ⟨w1, w2, hw⟩ := List.append_of_mem hx
    rw [hw]
    refine flushTo_safe p w1 ?_ hp
    intro y hy
    have hr : s.cl.wait ++ s.cl.subj = (items g files).drop k := h.rest
    have hm : y ∈ items g files := by
      apply List.mem_of_mem_drop (i := k)
      rw [← hr, hw]
      simp [hy]
    obtain ⟨a, b, hab⟩ := List.append_of_mem hy
    rcases List.mem_append.1 hm with hm | hm
    · have := dg.files y hm; omega
    · simp only [List.mem_cons, List.not_mem_nil, or_false] at hm
      rcases hm with hm | hm
      · rw [hm]; have := dg.sha; simp only; omega
      · have := (behind ok (a := a) (x := y) (b := b ++ x :: w2 ++ s.cl.subj) (k := k) (by rw [← hr, hw, hab]; simp) (by rw [hm])).2 (by rw [hm])
        simp at this
  · simp

theorem mem_filter (ok : FilesOk g files) {s : StowData.Sys} {c' : Stow.Client} {p : Bytes} (h : Inv g files k m (core s) got) (hm : Mem s.cl s.closed) (e : filterResp s.cl p = .ok c') :
    Mem c' s.closed := by
  obtain ⟨⟨w1, h1, h2, h3⟩, h4⟩ := filterResp_resp e
  have hr : s.cl.wait ++ s.cl.subj = (items g files).drop k := h.rest
  rw [h1, ← h4, List.append_assoc] at hr
  have hb : ∀ x ∈ w1, x.isFile = false → ∀ y ∈ c'.wait ++ c'.subj, y.digest = [] := by
    intro x hx hf y hy
    obtain ⟨a, b, hab⟩ := List.append_of_mem hx
    refine (behind ok (a := a) (x := x) (b := b ++ (c'.wait ++ c'.subj)) (k := k) ?_ hf).1 y (List.mem_append_right _ hy)
    rw [← hr, hab]
    simp
  have hsub : ∀ y ∈ c'.wait ++ c'.subj, y ∈ s.cl.wait ++ s.cl.subj := by
    intro y hy
    rw [h1, ← h4, List.append_assoc]
    exact List.mem_append_right _ hy
  refine ⟨?_, ?_⟩
  · intro hc
    rcases h2 with h2 | ⟨x, hx, h5, h6, h2⟩
    · rw [h2]; exact hm.once hc
    · exact absurd (hm.last (.inl hc) x (by rw [h1]; simp [hx])) h6
  · rintro (hc | hi | ⟨x, hx, hf⟩) y hy
    · exact hm.last (.inl hc) y (hsub y hy)
    · rcases h2 with h2 | ⟨x, hx, h5, h6, h2⟩
      · rw [h2] at hi
        exact hm.last (.inr (.inl hi)) y (hsub y hy)
      · exact hb x hx h5 y hy
    · rcases h3 with ⟨h3, _⟩ | ⟨z, hz, h3, _⟩
      · rw [h3] at hx
        exact hm.last (.inr (.inr ⟨x, hx, hf⟩)) y (hsub y hy)
      · rw [h3] at hx
        rcases List.mem_append.1 hx with hx | hx
        · exact hm.last (.inr (.inr ⟨x, hx, hf⟩)) y (hsub y hy)
        · rw [List.mem_singleton.1 hx] at hf
          exact hb z hz hf y hy

theorem mem_data {s : StowData.Sys} {p : Bytes} (h : Inv g files k m (core s) got) (hm : Mem s.cl s.closed) (hc : s.closed = false) :
    dataResp s p ≠ .ub ∧ ∀ s', dataResp s p = .ok s' → Mem s'.cl s'.closed := by
  unfold dataResp
  cases ha : s.ack with
  | nil => exact ⟨by simp, fun s' e => by cases e⟩
  | cons cp rest =>
    dsimp only
    obtain ⟨h1, h2, h3, h4, h5⟩ := ack_item h ha
    cases hp : afterSlash (cstr p) with
    | none => exact ⟨by simp, fun s' e => by cases e⟩
    | some pp =>
      dsimp only
      by_cases hcp : cp.isFile = false ∧ cp.digest ≠ []
      · rw [if_pos hcp]
        have hM : Mem { s.cl with info := some cp } s.closed := by
          refine ⟨fun hx => ?_, fun _ => hm.last (.inr (.inr ⟨cp, h2, hcp.1⟩))⟩
          rw [hc] at hx; cases hx
        cases hpre : pp.isPrefixOf cp.digest with
        | false => exact ⟨by simp [Res.check], fun s' e => by cases e⟩
        | true =>
          simp only [Res.check_true, Res.ok_bind]
          rw [← ha]
          exact mem_ctl (s := { s with cl := { s.cl with info := some cp } }) hM
      · rw [if_neg hcp]
        have hf : cp.isFile = true := by
          cases hcf : cp.isFile with
          | true => rfl
          | false => exact absurd ⟨hcf, h.noend cp h2⟩ hcp
        split
        · exact mem_ctl (s := { s with ack := rest }) hm
        · rw [hf, hc]
          simp only [Bool.not_false, Bool.and_true, Res.access_true, Res.ok_bind]
          exact mem_ctl (s := { s with
            ack := rest
            closed := false
            changed := s.changed ++ changedEntry cp.digest pp }) (by rw [hc] at hm; exact hm)

theorem closed_of {c : Core} (h : Inv g files k m c got) (hs : sends 3 c.up = []) : c.closed = false := by
  cases hc : c.closed with
  | false => rfl
  | true =>
    have := h.infos
    rw [hs, hc, if_pos rfl] at this
    unfold metaMsgs at this
    dsimp only at this
    split at this <;> cases this

theorem mem_step (ok : FilesOk g files) (dg : Digests g files) {c : Cl} {e : StowAny.Ev} {o : Out} (h : Good g files c) (hm : Mem c.sys.cl c.sys.closed) (hf : Fair c e)
    (he : StowAny.step g c e = some o) : o ≠ .ub ∧ ∀ c', lastCl o = some c' → Mem c'.sys.cl c'.sys.closed := by
  obtain ⟨k, m, h⟩ := h
  have hof : ∀ {got : List (Nat × Bytes)} {r : Res StowData.Sys}, r ≠ .ub → (∀ s', r = .ok s' → Mem s'.cl s'.closed) →
      StowAny.ofRes c got r ≠ .ub ∧ ∀ c', lastCl (StowAny.ofRes c got r) = some c' → Mem c'.sys.cl c'.sys.closed := by
    intro got r hu hr
    cases r with
    | ok s' => exact ⟨by simp [StowAny.ofRes], fun c' hc => by cases hc; exact hr s' rfl⟩
    | fail => exact ⟨by simp [StowAny.ofRes], fun c' hc => by cases hc; exact hm⟩
    | ub => exact absurd rfl hu
  cases e with
  | out sz file =>
    simp only [StowAny.step] at he
    split at he
    · cases he
      unfold StowAny.out
      dsimp only
      have := mem_out (g := g) (sz := sz + 1) (d := file.getD []) hm
      split
      · exact ⟨by simp, fun c' hc => by cases hc; exact this.2.2⟩
      · exact hof this.1 this.2.1
    · cases he
  | hup =>
    simp only [StowAny.step] at he
    split at he
    · cases he
      exact hof (mem_ctl hm).1 (mem_ctl hm).2
    · cases he
  | mtree =>
    simp only [StowAny.step] at he
    split at he
    · cases he
      have := mem_ctl (b := true) (s := { c.sys with avail := if c.sys.cl.subj.length ≤ c.sys.avail + 2 then c.sys.cl.subj.length else c.sys.avail + 1 }) hm
      exact hof this.1 this.2
    · cases he
  | lost =>
    cases he
    exact ⟨by simp, fun c' hc => by cases hc; exact hm⟩
  | inn i =>
    simp only [StowAny.step] at he
    split at he
    · cases he
      cases i with
      | eof => exact ⟨by simp [StowAny.inn], fun c' hc => by cases hc; exact hm⟩
      | cut => exact ⟨by simp [StowAny.inn], fun c' hc => by cases hc; exact hm⟩
      | msg cmd p =>
        simp only [StowAny.inn]
        split
        · exact ⟨by simp, fun c' hc => by cases hc; exact hm⟩
        rename_i hl
        have hl' : decide (p.length < 1024) = true := by simpa using hl
        split
        · exact ⟨by simp, fun c' hc => by cases hc; exact hm⟩
        split
        · rename_i h1
          have hs := filter_safe ok dg h (hf.1 h1)
          simp only [StowData.inn, hl', Res.check_true, Res.ok_bind]
          cases hr : filterResp c.sys.cl p with
          | ub => exact absurd hr hs
          | fail => exact hof (by simp) (fun s' e => by cases e)
          | ok c1 =>
            simp only [Res.ok_bind]
            have := mem_ctl (b := true) (s := { c.sys with
              cl := c1
              down := [] }) (mem_filter (s := c.sys) ok h hm hr)
            exact hof this.1 this.2
        split
        · rename_i h1
          have hcl : c.sys.closed = false := closed_of h (hf.2 h1)
          simp only [StowData.inn, hl', Res.check_true, Res.ok_bind]
          have := mem_data (s := { c.sys with down := [] }) (p := p) h hm hcl
          exact hof this.1 this.2
        split
        · simp only [StowData.inn, hl', Res.check_true, Res.ok_bind]
          cases hg : c.sys.gone with
          | true => exact hof (by simp [Res.check]) (fun s' e => by cases e)
          | false =>
            simp only [Bool.not_false, Res.check_true, Res.ok_bind]
            exact hof (by simp) (fun s' e => by cases e; exact hm)
        · exact ⟨by simp, fun c' hc => by cases hc; exact hm⟩
    · cases he

theorem mem_run (ok : FilesOk g files) (dg : Digests g files) : ∀ {es : List StowAny.Ev} {c : Cl}, Good g files c → Mem c.sys.cl c.sys.closed → RunFair g c es → StowAny.run g c es ≠ some .ub
  | [], c, _, _, _ => by simp [StowAny.run]
  | e :: es, c, h, hm, hf => by
    unfold StowAny.run
    cases he : StowAny.step g c e with
    | none => simp
    | some o =>
      obtain ⟨h1, h2⟩ := mem_step ok dg h hm hf.1 he
      cases o with
      | go c1 => exact mem_run ok dg (good_step ok h he c1 rfl) (h2 c1 rfl) (hf.2 c1 he)
      | exit c1 => simp
      | abort c1 => simp
      | ub => exact absurd rfl h1

/-- **C88** (memory).  The client does not use memory that it must not, if the server asks only for what it was asked about, and confirms no file after it has got the metadata. -/
theorem C88_memory_partial (ok : FilesOk g files) (dg : Digests g files) {es : List StowAny.Ev} (hf : RunFair g (StowAny.start g files) es) :
    StowAny.run g (StowAny.start g files) es ≠ some .ub := by
  refine mem_run ok dg ⟨0, 0, inv_start g files⟩ ⟨(fun h => by cases h), ?_⟩ hf
  rintro (h | h | ⟨x, h, _⟩)
  · cases h
  · exact absurd rfl h
  · cases h

/-! ### Examples -/

def gx : Cfg := ⟨16, 40960, [47], fun _ => List.replicate 64 97, fun _ _ => [], [1, 2, 3], [106], [48], 1024⟩

def fx : List Item := [⟨true, [102], List.replicate 64 98⟩, ⟨true, [103], List.replicate 64 99⟩]

def lists : List StowAny.Ev := [.mtree, .mtree, .mtree]

/-- One file is asked for, and sent in two pieces. -/
example : ∃ c, StowAny.run gx (StowAny.start gx fx) (lists ++ [.out 99 none, .inn (.msg 1 (List.replicate 16 99)), .out 1 (some [7, 8, 9]), .mtree]) = none ∧
    StowAny.run gx (StowAny.start gx fx) (lists ++ [.out 99 none, .inn (.msg 1 (List.replicate 16 99)), .out 99 (some [7, 8, 9]), .inn (.msg 1 []), .out 1 none, .out 1 none, .out 1 none,
      .inn (.msg 2 [47, 99]), .inn .eof]) = some (.go c) ∧
    sends 1 c.sys.up = [List.replicate 64 98, List.replicate 64 99, List.replicate 64 97, []] ∧ sends 2 c.sys.up = [[7, 8], [9], []] ∧ c.sys.sent = [(⟨true, [103], List.replicate 64 99⟩, [7, 8, 9])] :=
  ⟨_, rfl, rfl, rfl, rfl, rfl⟩

example : FilesOk gx fx ∧ Digests gx fx := by
  refine ⟨⟨by decide, by decide⟩, ⟨by decide, by decide⟩⟩

/-- The server asks for something that is not listed: the client compares the ID with what is behind the empty digest of its end mark. -/
theorem C88_counterexample_unlisted : StowAny.run gx (StowAny.start gx fx) (lists ++ [.out 99 none, .inn (.msg 1 (List.replicate 16 120))]) = some .ub := by rfl

/-- The server confirms the list of files twice: the client writes its metadata again, from a file that it has closed. -/
theorem C88_counterexample_twice : StowAny.run gx (StowAny.start gx fx) (lists ++ [.out 99 none, .inn (.msg 1 (List.replicate 16 97)), .out 99 none, .out 99 none, .out 99 none,
    .inn (.msg 2 (47 :: List.replicate 16 97)), .out 99 none, .inn (.msg 2 (47 :: List.replicate 16 97)), .out 99 none]) = some .ub := by rfl

end AnyServer
end Verif.Props
