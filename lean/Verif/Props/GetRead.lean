/-
C106: an object that cannot be read from its silos is not delivered in part.
-/
import Verif.Model.GetRead
import Verif.Props.Getjob
import Verif.Props.Torn

namespace Verif.Props.ReadFaults
open Verif Header Index Rsilo Gzip Wsilo Getjob Segjob Spec Inflate MainStore GetRead
open _root_.Verif.Gzip (collect)

/-! ### Without errors -/

theorem gzLoopErr_none {σ : Type} (ps : Nat) (func : ByteIter σ) : ∀ (fuel : Nat) (rs : Rs) (s : σ) (ll : Nat),
    gzLoopErr ps func fuel none rs s ll = gzLoop ps func fuel rs s ll := by
  intro fuel
  induction fuel with
  | zero => intros; rfl
  | succ fuel ih =>
    intro rs s ll
    rw [gzLoopErr, gzLoop, if_neg (by simp)]
    simp only [Option.map_none, ih]

theorem readGZChunkErr_none {σ : Type} (ps : Nat) (func : ByteIter σ) (rs : Rs) (s : σ) :
    readGZChunkErr ps func none rs s = readGZChunk ps func rs s := by
  rw [readGZChunkErr, readGZChunk, gzLoopErr_none]

theorem iterStitchErr_none {σ : Type} (ps : Nat) (f : σ → Bytes → σ × Int) : ∀ (gs : List GSeg) (ts : List Fault) (s : Stitch σ),
    (∀ t ∈ ts, t = none) → iterStitchErr ps f ts gs s = iterStitch ps f gs s := by
  intro gs
  induction gs with
  | nil => intros; rfl
  | cons g gs ih =>
    intro ts s h
    have h1 : ts.headD none = none := by
      cases ts with
      | nil => rfl
      | cons t ts => exact h t (by simp)
    rw [iterStitchErr, iterStitch, h1, readGZChunkErr_none]
    have e : ∀ s, iterStitchErr ps f ts.tail gs s = iterStitch ps f gs s :=
      fun s => ih ts.tail s (fun t ht => h t (List.mem_of_mem_tail ht))
    simp only [e]

theorem iterPlainErr_none {σ : Type} (ps : Nat) (cut : Bytes → List Bytes) (f : ByteIter σ) : ∀ (gs : List GSeg) (ts : List Fault) (s : σ),
    (∀ t ∈ ts, t = none) → iterPlainErr ps cut f ts gs s = iterPlain cut f gs s := by
  intro gs
  induction gs with
  | nil => intros; rfl
  | cons g gs ih =>
    intro ts s h
    have h1 : ts.headD none = none := by
      cases ts with
      | nil => rfl
      | cons t ts => exact h t (by simp)
    rw [iterPlainErr, iterPlain, h1, readChunkErr, met, if_neg (by simp)]
    have e : ∀ s, iterPlainErr ps cut f ts.tail gs s = iterPlain cut f gs s :=
      fun s => ih ts.tail s (fun t ht => h t (List.mem_of_mem_tail ht))
    simp only [e]

/-- C106: if no call of read(2) fails, it is as in the other properties. -/
theorem C106_fine (env : Env) (cut : Bytes → List Bytes) (ts : List Fault) (gj : GJ) (zip : Bool) (h : ∀ t ∈ ts, t = none) :
    getObjErr env cut ts gj zip = getObj env cut gj zip := by
  have key : getjobIterateErr env.ps cut ts gj getIter [] zip = getjobIterate env.ps cut gj getIter [] zip := by
    have h1 : ts.headD none = none := by
      cases ts with
      | nil => rfl
      | cons t ts => exact h t (by simp)
    rw [getjobIterateErr, getjobIterate, iterPlainErr_none _ _ _ _ _ _ h]
    cases zip with
    | false => rfl
    | true =>
      simp only [Bool.true_eq_false, if_false]
      match gj.segs with
      | [] => rfl
      | [g] => simp only [h1, readGZChunkErr_none]
      | g :: g' :: gs => simp only [iterStitchErr_none _ _ _ _ _ h]
  rw [getObjErr, getObj, key]

/-! ### Without `-z` -/

theorem iterPlainErr_ok {σ : Type} (ps : Nat) (cut : Bytes → List Bytes) (f : ByteIter σ) : ∀ (gs : List GSeg) (ts : List Fault) (s s' : σ),
    iterPlainErr ps cut f ts gs s = .ok s' → iterPlain cut f gs s = .ok s' := by
  intro gs
  induction gs with
  | nil => intro ts s s' h; exact h
  | cons g gs ih =>
    intro ts s s' h
    rw [iterPlainErr, Res.bind_eq_ok] at h
    obtain ⟨r, h1, h2⟩ := h
    rw [readChunkErr] at h1
    split at h1
    · cases h1
    · rw [iterPlain, h1]
      simp only [Res.ok_bind]
      split at h2
      · next hz => rw [if_pos hz]; exact h2
      · next hz => rw [if_neg hz]; exact ih _ _ _ h2

/-- C106: without `-z`, whatever calls of read(2) fail: if the program ends with status 0 it has written the same as without
errors. -/
theorem C106_plain (env : Env) (cut : Bytes → List Bytes) (ts : List Fault) (gj : GJ) (d : Bytes)
    (h : getObjErr env cut ts gj false = .ok d) : getObj env cut gj false = .ok d := by
  rw [getObjErr] at h
  rw [getObj]
  simp only [Res.bind_eq_ok] at h ⊢
  obtain ⟨h1, e1, h9, e9, x, ex, h⟩ := h
  refine ⟨h1, e1, h9, e9, x, ?_, h⟩
  exact iterPlainErr_ok _ _ _ _ _ _ _ ex

/-- The call that fails is met exactly if it is needed for the body of the record. -/
theorem met_iff {pfx pre post : Bytes} {r : Rec} {h : Hdr} (hc : r.Complete pfx h) (ps : Nat) (t : Fault) :
    met ps t (atBody (pre ++ r.bytes ++ post) pre.length r) = true ↔ ∃ k, t = some k ∧ k * ps < r.bgz.length := by
  have hdrop : (atBody (pre ++ r.bytes ++ post) pre.length r).file.drop (atBody (pre ++ r.bytes ++ post) pre.length r).pos =
      r.bgz ++ (separator ++ post) := by
    unfold atBody
    simp only [Rec.bytes]
    rw [show pre ++ (r.hgz ++ r.bgz ++ separator) ++ post = (pre ++ r.hgz) ++ (r.bgz ++ (separator ++ post)) by simp [List.append_assoc]]
    exact List.drop_left' (by simp)
  cases t with
  | none => simp [met]
  | some k =>
    simp only [met, hdrop, Option.some.injEq, exists_eq_left']
    by_cases hk : k * ps < r.bgz.length
    · rw [List.take_append_of_le_length (by omega), member_torn hc.body hk]
      simp [hk]
    · rw [List.take_append, List.take_of_length_le (by omega), member_gunzip1 hc.body]
      simp [hk]

/-- A call of read(2) fails that is needed for one of the records. -/
def Needed (ps : Nat) (ts : List Fault) (xs : List Item) : Prop :=
  ∃ (i : Nat) (z : Item) (k : Nat), xs[i]? = some z ∧ ts[i]? = some (some k) ∧ k * ps < z.record.bgz.length

theorem needed_cons (ps : Nat) (ts : List Fault) (x : Item) (xs : List Item) :
    Needed ps ts (x :: xs) ↔ (∃ k, ts.headD none = some k ∧ k * ps < x.record.bgz.length) ∨ Needed ps ts.tail xs := by
  cases ts with
  | nil => simp [Needed]
  | cons t ts =>
    constructor
    · rintro ⟨i, z, k, h1, h2, h3⟩
      cases i with
      | zero =>
        simp only [List.getElem?_cons_zero, Option.some.injEq] at h1 h2
        subst h1
        exact .inl ⟨k, by simpa using h2, h3⟩
      | succ i => exact .inr ⟨i, z, k, by simpa using h1, by simpa using h2, h3⟩
    · rintro (⟨k, h1, h2⟩ | ⟨i, z, k, h1, h2, h3⟩)
      · exact ⟨0, x, k, by simp, by simpa using h1, h2⟩
      · exact ⟨i + 1, z, k, by simpa using h1, by simpa using h2, h3⟩

theorem iterPlainErr_items {ps : Nat} {pfx : Bytes} {w : World} {n : Nat} {xs : List Item} {gs : List GSeg} (hg : GotItems w n xs gs)
    (hc : ∀ x ∈ xs, x.record.Complete pfx x.hdr) (cut : Bytes → List Bytes) : ∀ (ts : List Fault) (s : Bytes),
    (Needed ps ts xs → iterPlainErr ps cut (fun s d => .ok (collect s d)) ts gs s = .fail) ∧
    (¬ Needed ps ts xs → iterPlainErr ps cut (fun s d => .ok (collect s d)) ts gs s = iterPlain cut (fun s d => .ok (collect s d)) gs s) := by
  induction hg with
  | nil =>
    intro ts s
    exact ⟨fun ⟨i, z, k, h, _⟩ => by simp at h, fun _ => rfl⟩
  | cons h1 h2 ih =>
    intro ts s
    obtain ⟨pre, post, e, -⟩ := gseg_file h1
    rename_i x g xs gs
    have hx := hc x (by simp)
    have hb := member_length hx.body
    have hmet := met_iff (pre := pre) (post := post) hx ps (ts.headD none)
    rw [← e] at hmet
    rw [iterPlainErr, iterPlain, readChunkErr, needed_cons]
    by_cases hm : met ps (ts.headD none) g.rs = true
    · rw [if_pos hm]
      exact ⟨fun _ => rfl, fun h => absurd (Or.inl (hmet.1 hm)) h⟩
    · rw [if_neg hm]
      have hno : ¬ ∃ k, ts.headD none = some k ∧ k * ps < x.record.bgz.length := fun h => hm (hmet.2 h)
      have ih' := fun s => ih (fun y hy => hc y (by simp [hy])) ts.tail s
      rw [e, readChunk_rec hx, deliver_collectFn]
      simp only [Res.ok_bind, Res.pure_eq, if_true]
      rw [if_neg (by omega)]
      constructor
      · rintro (h | h)
        · exact absurd h hno
        · exact (ih' _).1 h
      · intro h
        rw [if_neg (by omega)]
        exact (ih' _).2 (fun h' => h (Or.inr h'))

/-- C106: without `-z` the program stops if a call of read(2) fails that is needed for the object; other errors are not met. -/
theorem C106_stops {env : Env} {w : World} {A : List Item} {id q : Bytes} {x : Item} {ys : List Item} {fuel : Nat}
    (hg : Gettable env.ps env.pfx env.idSize w A id x ys) (hq : idxValidId env.pfx env.idSize q = .ok id) (hfuel : ys.length < fuel)
    (cut : Bytes → List Bytes) :
    ∃ gj, getjobNew env.ps env.pfx env.idSize fuel w q = .ok (.job gj) ∧ ∀ ts : List Fault,
      ((∃ (i : Nat) (z : Item) (k : Nat), (x :: ys)[i]? = some z ∧ ts[i]? = some (some k) ∧ k * env.ps < z.record.bgz.length) → getObjErr env cut ts gj false = .fail) ∧
      ((∀ (i : Nat) (z : Item) (k : Nat), (x :: ys)[i]? = some z → ts[i]? = some (some k) → z.record.bgz.length ≤ k * env.ps) →
        getObjErr env cut ts gj false = getObj env cut gj false) := by
  obtain ⟨gs, g1, g2⟩ := getjobNew_object hg.there hq hg.object hg.first hg.chain hg.find hg.finds hfuel
  have hc : ∀ y ∈ x :: ys, y.record.Complete env.pfx y.hdr := fun y hy => (hg.there y (object_mem hg.object y hy)).2.1
  refine ⟨_, g2, fun ts => ?_⟩
  obtain ⟨k1, k2⟩ := iterPlainErr_items (ps := env.ps) g1 hc cut ts []
  have hcol : (getIter : Bytes → Bytes → Bytes × Int) = _root_.Verif.Gzip.collect := rfl
  have i9 : ∀ b, ∃ v, gjHeader { id := id, err := .notFound, segs := gs } b = .ok v := by
    intro b
    cases g1 with
    | cons h h' =>
      rename_i ga gb
      have hv : (ga :: gb).getLast? = some ((ga :: gb).getLast (by simp)) := List.getLast?_eq_some_getLast (by simp)
      cases b with
      | true => exact ⟨_, rfl⟩
      | false =>
        refine ⟨((ga :: gb).getLast (by simp)).hdr, ?_⟩
        rw [gjHeader]
        simp only [Bool.false_eq_true, if_false, hv]
  obtain ⟨v1, e1⟩ := i9 true
  obtain ⟨v9, e9⟩ := i9 false
  constructor
  · intro h
    rw [getObjErr, e1, e9, hcol]
    simp only [Res.ok_bind, getjobIterateErr, if_true, k1 h, Res.fail_bind]
  · intro h
    have hn : ¬ Needed env.ps ts (x :: ys) := by
      rintro ⟨i, z, k, a, b, c⟩
      have := h i z k a b
      omega
    rw [getObjErr, getObj, e1, e9, hcol]
    simp only [Res.ok_bind, getjobIterateErr, getjobIterate, if_true, k2 hn]

/-! ### One segment -/

/-- What the loop hands to `collect` if the call after `k` others fails. -/
theorem gzLoopErr_take (ps : Nat) (hps : 0 < ps) : ∀ (k fuel : Nat) (file pre gz post s : Bytes) (ll : Nat),
    file = pre ++ gz ++ post → gz ≠ [] → gz.length < fuel →
    ∃ rs n, gzLoopErr ps (fun s d => .ok (collect s d)) fuel (some k) { file := file, pos := pre.length, bodylen := gz.length, whr := .body } s ll =
      .ok (s ++ gz.take (k * (32 * ps)), rs, n) := by
  intro k
  induction k with
  | zero =>
    intro fuel file pre gz post s ll _ _ hf
    cases fuel with
    | zero => omega
    | succ fuel =>
      rw [gzLoopErr, if_pos rfl]
      exact ⟨_, _, by simp; exact ⟨rfl, rfl⟩⟩
  | succ k ih =>
    intro fuel file pre gz post s ll hfile hne hf
    cases fuel with
    | zero => omega
    | succ fuel =>
      have hlen := List.length_pos_iff.mpr hne
      obtain ⟨d, hd⟩ : ∃ d, d = gz.take (32 * ps) := ⟨_, rfl⟩
      have hread : Rsilo.read { file := file, pos := pre.length, bodylen := gz.length, whr := .body } (min (32 * ps) ((gz.length : Int).toNat)) = d := by
        unfold Rsilo.read
        simp only
        rw [hfile, List.append_assoc, List.drop_left' rfl, Int.toNat_natCast, List.take_append_of_le_length (by omega), hd]
        rcases Nat.le_total (32 * ps) gz.length with h | h
        · rw [Nat.min_eq_left h]
        · rw [Nat.min_eq_right h, List.take_of_length_le (Nat.le_refl _), List.take_of_length_le h]
      have hdl : d.length = min (32 * ps) gz.length := by rw [hd, List.length_take]
      have hdne : d ≠ [] := by intro h; rw [h] at hdl; simp at hdl; omega
      rw [gzLoopErr, if_neg (by simp)]
      simp only [hread]
      rw [if_neg hdne]
      simp only [Res.ok_bind, _root_.Verif.Gzip.collect, ne_eq, not_true_eq_false, if_false, Option.map_some, Nat.add_sub_cancel]
      by_cases hmore : 32 * ps < gz.length
      · rw [if_pos (by omega)]
        have hgz : d ++ gz.drop (32 * ps) = gz := by rw [hd, List.take_append_drop]
        have hl2 : (gz.drop (32 * ps)).length = gz.length - 32 * ps := List.length_drop
        have := ih fuel file (pre ++ d) (gz.drop (32 * ps)) post (s ++ d) (ll + d.length)
          (by rw [List.append_assoc pre d, hgz]; exact hfile)
          (by intro h; rw [h] at hl2; simp at hl2; omega) (by omega)
        obtain ⟨rs, n, h⟩ := this
        refine ⟨rs, n, ?_⟩
        have e1 : ((gz.length : Int) - d.length) = ((gz.drop (32 * ps)).length : Nat) := by omega
        have e2 : gz.take ((k + 1) * (32 * ps)) = d ++ (gz.drop (32 * ps)).take (k * (32 * ps)) := by
          rw [hd, Nat.succ_mul, Nat.add_comm, List.take_add]
        rw [e1, e2, ← List.append_assoc, ← h, List.length_append]
        rfl
      · rw [if_neg (by omega)]
        have e : d = gz := by rw [hd]; exact List.take_of_length_le (by omega)
        have e2 : gz.take ((k + 1) * (32 * ps)) = gz := List.take_of_length_le (by
          rw [Nat.succ_mul]; omega)
        rw [e2, e]
        exact ⟨_, _, rfl⟩

/-- C106 is false with `-z`: of an object of one segment, if a call of read(2) fails after `k` others, the program writes what
these have read, and ends with status 0. -/
theorem C106_lost {env : Env} {w : World} {A : List Item} {id q : Bytes} {x : Item} {fuel : Nat}
    (hg : Gettable env.ps env.pfx env.idSize w A id x []) (hq : idxValidId env.pfx env.idSize q = .ok id) (hfuel : 0 < fuel)
    (cut : Bytes → List Bytes) :
    ∃ gj, getjobNew env.ps env.pfx env.idSize fuel w q = .ok (.job gj) ∧
      ∀ k, getObjErr env cut [some k] gj true = .ok (x.record.bgz.take (k * (32 * env.ps))) := by
  obtain ⟨gs, g1, g2⟩ := getjobNew_object hg.there hq hg.object hg.first hg.chain hg.find hg.finds hfuel
  have hc := (hg.there x hg.object.1).2.1
  have hps : 0 < env.ps := by
    have := (hg.there x hg.object.1).2.2.packed
    omega
  refine ⟨_, g2, ?_⟩
  intro k
  cases g1 with
  | cons h h2 =>
    cases h2
    rename_i g
    obtain ⟨pre, post, e, -⟩ := gseg_file h
    have hb := member_length hc.body
    have hne : x.record.bgz ≠ [] := by intro h0; rw [h0] at hb; simp at hb
    obtain ⟨rs, n, e3⟩ := gzLoopErr_take env.ps hps k (x.record.bgz.length + 1) (pre ++ x.record.bytes ++ post) (pre ++ x.record.hgz) x.record.bgz
      (separator ++ post) [] 0 (by simp only [Rec.bytes, List.append_assoc]) hne (by omega)
    rw [List.length_append] at e3
    have e4 : readGZChunkErr env.ps (fun s d => .ok (collect s d)) (some k) g.rs [] =
        .ok (x.record.bgz.take (k * (32 * env.ps)), rs, n % 2 ^ 32) := by
      rw [e]
      unfold readGZChunkErr
      rw [show (atBody (pre ++ x.record.bytes ++ post) pre.length x.record).whr = .body from rfl]
      simp only [decide_true, Res.check_true, Res.ok_bind]
      rw [show (atBody (pre ++ x.record.bytes ++ post) pre.length x.record).bodylen.toNat = x.record.bgz.length from rfl]
      unfold atBody
      rw [e3]
      rfl
    have e5 : readGZChunkErr env.ps (fun s d => .ok (getIter s d)) (some k) g.rs [] = .ok (x.record.bgz.take (k * (32 * env.ps)), rs, n % 2 ^ 32) := e4
    simp [getObjErr, gjHeader, getjobIterateErr, e5]

/-! ### Several segments -/

theorem gotItems_split {w : World} : ∀ {xs : List Item} {y : Item} {zs : List Item} {n : Nat} {gs : List GSeg}, GotItems w n (xs ++ y :: zs) gs →
    ∃ gs1 g gs2 m, gs = gs1 ++ g :: gs2 ∧ GotItems w n xs gs1 ∧ GotItem w y m g ∧ gs1.length = xs.length := by
  intro xs
  induction xs with
  | nil =>
    intro y zs n gs h
    cases h with
    | cons h1 h2 => exact ⟨[], _, _, n, rfl, .nil, h1, rfl⟩
  | cons x xs ih =>
    intro y zs n gs h
    cases h with
    | cons h1 h2 =>
      obtain ⟨gs1, g, gs2, m, rfl, h3, h4, h5⟩ := ih h2
      exact ⟨_ :: gs1, g, gs2, m, rfl, .cons h1 h3, h4, by simp [h5]⟩

/-- If the first call for a segment fails, that is the end. -/
theorem iterStitchErr_first {σ : Type} (ps : Nat) (f : σ → Bytes → σ × Int) (g : GSeg) (hg : g.rs.whr = .body) (gs2 : List GSeg) :
    ∀ (gs1 : List GSeg) (s : Stitch σ),
    iterStitchErr ps f (List.replicate gs1.length none ++ [some 0]) (gs1 ++ g :: gs2) s = iterStitch ps f gs1 s := by
  intro gs1
  induction gs1 with
  | nil =>
    intro s
    simp [iterStitchErr, iterStitch, readGZChunkErr, hg, gzLoopErr]
  | cons g1 gs1 ih =>
    intro s
    rw [List.cons_append, iterStitchErr, iterStitch]
    simp only [List.length_cons, List.replicate_succ, List.cons_append, List.headD_cons, List.tail_cons, readGZChunkErr_none, ih]

/-- C106 is false with `-z`: of an object of several segments, if read(2) fails for the first time at the beginning of a segment,
the program writes a complete gzip file of the segments before it, and ends with status 0: not even `gunzip` can tell. -/
theorem C106_stitched {env : Env} {w : World} {A : List Item} {id q : Bytes} {x y : Item} {ys zs : List Item} {fuel : Nat}
    (hg : Gettable env.ps env.pfx env.idSize w A id x (ys ++ y :: zs)) (hq : idxValidId env.pfx env.idSize q = .ok id)
    (hfuel : (ys ++ y :: zs).length < fuel) (cut : Bytes → List Bytes)
    (hs : ∀ z ∈ x :: ys, Segment z.record.bgz z.record.data ∧ z.record.data.length < 2 ^ 32 ∧ z.record.bgz.length % 2 ^ 32 ≠ 0) :
    ∃ gj out, getjobNew env.ps env.pfx env.idSize fuel w q = .ok (.job gj) ∧
      getObjErr env cut (List.replicate (x :: ys).length none ++ [some 0]) gj true = .ok out ∧
      gunzip out = some ((x :: ys).map (·.record.data)).flatten := by
  obtain ⟨gs, g1, g2⟩ := getjobNew_object hg.there hq hg.object hg.first hg.chain hg.find hg.finds hfuel
  have hc : ∀ z ∈ x :: ys, z.record.Complete env.pfx z.hdr := fun z hz => (hg.there z (object_mem hg.object z (by
    rcases List.mem_cons.1 hz with h | h
    · simp [h]
    · simp [h]))).2.1
  have hps : 0 < env.ps := by
    have := (hg.there x hg.object.1).2.2.packed
    omega
  have hcut : ∀ z ∈ x :: ys, Cut z.record.bgz (pieces (32 * env.ps) (z.record.bgz.length + 1) z.record.bgz) := by
    intro z hz
    have := member_length (hc z hz).body
    exact pieces_cut (by omega) (by omega) (by omega)
  obtain ⟨out, o1, o2⟩ := C20_stitch_partial ((x :: ys).map (fun z => (z.record.bgz, z.record.data, pieces (32 * env.ps) (z.record.bgz.length + 1) z.record.bgz))) (by
    intro s hs'
    obtain ⟨z, hz, rfl⟩ := List.mem_map.1 hs'
    exact ⟨(hs z hz).1, (hs z hz).2.1, hcut z hz⟩)
  obtain ⟨g, n, body, ts, k1, k2, -⟩ := stitchSegs_done
    ((x :: ys).map (fun z => (z.record.bgz, z.record.data, pieces (32 * env.ps) (z.record.bgz.length + 1) z.record.bgz))) (stitchNew collect ([] : Bytes)) (by
    intro s hs'
    obtain ⟨z, hz, rfl⟩ := List.mem_map.1 hs'
    exact ⟨(hs z hz).1, hcut z hz⟩) rfl rfl rfl (by decide)
  rw [List.map_map] at k1 o1 o2
  rw [← List.cons_append] at g1
  obtain ⟨gs1, gy, gs2, m, rfl, h3, h4, h5⟩ := gotItems_split g1
  have hit := iterStitch_items hps h3 hc (fun z hz => (hs z hz).2.2) collect _ g k1 k2
  have hall : stitchAll ((x :: ys).map (fun z => pieces (32 * env.ps) (z.record.bgz.length + 1) z.record.bgz)) = .ok (stitchFini collect g).1 := by
    show (stitchSegs collect _ (stitchNew collect []) >>= fun gs => pure (stitchFini collect gs).1) = _
    rw [show (x :: ys).map (fun z => pieces (32 * env.ps) (z.record.bgz.length + 1) z.record.bgz) = _ from rfl]
    exact (congrArg (· >>= fun gs => pure (stitchFini collect gs).1) k1).trans rfl
  have ho : (stitchFini collect g).1 = out := Res.ok.inj (hall.symm.trans o1)
  have hb : gy.rs.whr = .body := by
    obtain ⟨pre, post, e, -⟩ := gseg_file h4
    rw [e]; rfl
  refine ⟨_, out, g2, ?_, by rw [o2]; rfl⟩
  have hfirst := iterStitchErr_first env.ps collect gy hb gs2 gs1 (stitchNew collect ([] : Bytes))
  rw [hit, h5] at hfirst
  have hcol : (getIter : Bytes → Bytes → Bytes × Int) = _root_.Verif.Gzip.collect := rfl
  cases h3 with
  | cons h h' =>
    rename_i ga gb
    obtain ⟨hh, tt, hgb⟩ : ∃ hh tt, gb ++ gy :: gs2 = hh :: tt := by
      cases gb with
      | nil => exact ⟨_, _, rfl⟩
      | cons a b => exact ⟨_, _, rfl⟩
    rw [List.cons_append, hgb] at hfirst ⊢
    have hlast : ∃ v, (ga :: hh :: tt).getLast? = some v := ⟨_, List.getLast?_eq_some_getLast (by simp)⟩
    obtain ⟨v, hv⟩ := hlast
    rw [getObjErr, hcol]
    have i1 : gjHeader { id := id, err := .notFound, segs := ga :: hh :: tt } true = .ok ga.hdr := rfl
    have i9 : gjHeader { id := id, err := .notFound, segs := ga :: hh :: tt } false = .ok v.hdr := by
      rw [gjHeader]
      simp only [Bool.false_eq_true, if_false, hv]
    rw [i1, i9]
    simp only [Res.ok_bind, getjobIterateErr, Bool.true_eq_false, if_false, hfirst, if_true, Res.pure_eq, ho]

/-! ### What is written at all -/

/-- `le` is an order in which the callback goes up. -/
structure Rising {σ : Type} (le : σ → σ → Prop) (func : ByteIter σ) : Prop where
  refl : ∀ s, le s s
  trans : ∀ a b c, le a b → le b c → le a c
  step : ∀ s d r, func s d = .ok r → le s r.1

theorem gzLoop_rises {σ : Type} {le : σ → σ → Prop} {func : ByteIter σ} (H : Rising le func) (ps : Nat) :
    ∀ (fuel : Nat) (rs : Rs) (s : σ) (ll : Nat) (b : σ × Rs × Nat), gzLoop ps func fuel rs s ll = .ok b → le s b.1 := by
  intro fuel
  induction fuel with
  | zero => intro rs s ll b h; simp only [gzLoop, Res.pure_eq, Res.ok.injEq] at h; subst h; exact H.refl s
  | succ fuel ih =>
    intro rs s ll b h
    rw [gzLoop] at h
    generalize hd : Rsilo.read rs (min (32 * ps) rs.bodylen.toNat) = d at h
    simp only at h
    by_cases h0 : d = []
    · rw [if_pos h0] at h; simp only [Res.pure_eq, Res.ok.injEq] at h; subst h; exact H.refl s
    · rw [if_neg h0, Res.bind_eq_ok] at h
      obtain ⟨r, hr, h⟩ := h
      have hs := H.step _ _ _ hr
      split at h
      · simp only [Res.pure_eq, Res.ok.injEq] at h; subst h; exact hs
      · split at h
        · exact H.trans _ _ _ hs (ih _ _ _ _ h)
        · simp only [Res.pure_eq, Res.ok.injEq] at h; subst h; exact hs

theorem gzLoopErr_below {σ : Type} {le : σ → σ → Prop} {func : ByteIter σ} (H : Rising le func) (ps : Nat) :
    ∀ (fuel : Nat) (t : Fault) (rs : Rs) (s : σ) (ll : Nat) (b : σ × Rs × Nat), gzLoop ps func fuel rs s ll = .ok b →
    ∃ a, gzLoopErr ps func fuel t rs s ll = .ok a ∧ (a = b ∨ a.2.2 = 0 ∧ le a.1 b.1) := by
  intro fuel
  induction fuel with
  | zero => intro t rs s ll b h; exact ⟨b, h, .inl rfl⟩
  | succ fuel ih =>
    intro t rs s ll b h
    rw [gzLoopErr]
    by_cases ht : t = some 0
    · rw [if_pos ht]
      exact ⟨_, rfl, .inr ⟨rfl, gzLoop_rises H ps _ _ _ _ _ h⟩⟩
    · rw [if_neg ht]
      rw [gzLoop] at h
      generalize hd : Rsilo.read rs (min (32 * ps) rs.bodylen.toNat) = d at h ⊢
      simp only at h ⊢
      by_cases h0 : d = []
      · rw [if_pos h0] at h ⊢; exact ⟨b, h, .inl rfl⟩
      · rw [if_neg h0, Res.bind_eq_ok] at h
        obtain ⟨r, hr, h⟩ := h
        rw [if_neg h0, hr, Res.ok_bind]
        split at h
        · next h1 => rw [if_pos h1]; exact ⟨b, h, .inl rfl⟩
        · next h1 =>
          rw [if_neg h1]
          split at h
          · next h2 => rw [if_pos h2]; exact ih _ _ _ _ _ h
          · next h2 => rw [if_neg h2]; exact ⟨b, h, .inl rfl⟩

theorem readGZChunk_rises {σ : Type} {le : σ → σ → Prop} {func : ByteIter σ} (H : Rising le func) {ps : Nat} {rs : Rs} {s : σ} {b : σ × Rs × Nat}
    (h : readGZChunk ps func rs s = .ok b) : le s b.1 := by
  rw [readGZChunk, Res.bind_eq_ok] at h
  obtain ⟨_, _, h⟩ := h
  rw [Res.bind_eq_ok] at h
  obtain ⟨r, hr, h⟩ := h
  simp only [Res.pure_eq, Res.ok.injEq] at h
  have h1 := gzLoop_rises H ps _ _ _ _ _ hr
  subst h
  exact h1

theorem readGZChunkErr_below {σ : Type} {le : σ → σ → Prop} {func : ByteIter σ} (H : Rising le func) {ps : Nat} (t : Fault) {rs : Rs} {s : σ}
    {b : σ × Rs × Nat} (h : readGZChunk ps func rs s = .ok b) :
    ∃ a, readGZChunkErr ps func t rs s = .ok a ∧ (a = b ∨ a.2.2 = 0 ∧ le a.1 b.1) := by
  rw [readGZChunk, Res.bind_eq_ok] at h
  obtain ⟨u, hu, h⟩ := h
  rw [Res.bind_eq_ok] at h
  obtain ⟨r, hr, h⟩ := h
  simp only [Res.pure_eq, Res.ok.injEq] at h
  subst h
  obtain ⟨a, ha, hab⟩ := gzLoopErr_below H ps _ t _ _ _ _ hr
  refine ⟨(a.1, a.2.1, a.2.2 % 2 ^ 32), ?_, ?_⟩
  · rw [readGZChunkErr, hu, Res.ok_bind, ha]; rfl
  · rcases hab with rfl | ⟨h1, h2⟩
    · exact .inl rfl
    · exact .inr ⟨by simp [h1], h2⟩

/-- What has been written so far is a beginning of what has been written later. -/
def Grown (a b : Stitch Bytes) : Prop := a.out <+: b.out

theorem feedOutside_grows {gs : Stitch Bytes} {p : Bytes} {r : Stitch Bytes × Bytes} (h : feedOutside gs p = .ok r) : Grown gs r.1 := by
  unfold feedOutside at h
  simp only [Res.bind_eq_ok, Res.pure_eq, Res.ok.injEq] at h
  obtain ⟨_, _, _, _, _, _, _, _, _, _, _, _, _, _, _, _, _, _, rfl⟩ := h
  exact List.prefix_rfl

theorem feedInside_grows {gs : Stitch Bytes} {p : Bytes} {r : Stitch Bytes × Bytes} (h : feedInside collect gs p = .ok r) : Grown gs r.1 := by
  unfold feedInside at h
  rw [Res.bind_eq_ok] at h
  obtain ⟨_, _, h⟩ := h
  simp only at h
  rw [Res.bind_eq_ok] at h
  obtain ⟨_, _, h⟩ := h
  generalize (if (p.length : Int) > gs.gzlen - 13 then gs.gzlen - 13 else (p.length : Int)) = skip at h
  split at h <;> (simp only [Res.pure_eq, Res.ok.injEq] at h; subst h; exact List.prefix_append _ _)

theorem feedTail_grows {gs : Stitch Bytes} {p : Bytes} {r : Stitch Bytes × Bytes} (h : feedTail collect gs p = .ok r) : Grown gs r.1 := by
  have hg : ∀ (c : Prop) [Decidable c] (tb : Bytes), gs.out <+: (if c then collect gs.out tb else (gs.out, gs.retval)).1 := by
    intro c _ tb
    split
    · exact List.prefix_append _ _
    · exact List.prefix_rfl
  unfold feedTail at h
  rw [Res.bind_eq_ok] at h
  obtain ⟨_, _, h⟩ := h
  simp only at h
  generalize gs.tailbuf.take (13 - gs.gzlen).toNat ++ p ++ gs.tailbuf.drop ((13 - gs.gzlen).toNat + p.length) = tb at h
  by_cases h0 : gs.gzlen - p.length ≠ 0
  · rw [if_pos h0] at h
    simp only [Res.pure_eq, Res.ok.injEq] at h; subst h; exact List.prefix_rfl
  · rw [if_neg h0] at h
    have hx := hg (tb.getD 3 0 = 0x03 ∧ tb.getD 4 0 = 0x00) (tb.take 3)
    generalize (if tb.getD 3 0 = 0x03 ∧ tb.getD 4 0 = 0x00 then collect gs.out (tb.take 3) else (gs.out, gs.retval)) = x at h hx
    by_cases h1 : (tb.getD 3 0 = 0x03 ∧ tb.getD 4 0 = 0x00) ∧ x.2 ≠ 0
    · rw [if_pos h1] at h
      simp only [Res.pure_eq, Res.ok.injEq] at h; subst h; exact hx
    · rw [if_neg h1, Res.bind_eq_ok] at h
      obtain ⟨_, _, h⟩ := h
      simp only [Res.pure_eq, Res.ok.injEq] at h; subst h; exact hx

theorem feedLoop_grows : ∀ (fuel : Nat) (gs : Stitch Bytes) (p : Bytes) (r : Stitch Bytes), feedLoop collect fuel gs p = .ok r → Grown gs r := by
  intro fuel
  induction fuel with
  | zero => intro gs p r h; simp only [_root_.Verif.Gzip.feedLoop, Res.pure_eq, Res.ok.injEq] at h; subst h; exact List.prefix_rfl
  | succ fuel ih =>
    intro gs p r h
    rw [_root_.Verif.Gzip.feedLoop] at h
    split at h
    · simp only [Res.pure_eq, Res.ok.injEq] at h; subst h; exact List.prefix_rfl
    · rw [Res.bind_eq_ok] at h
      obtain ⟨x, hx, h⟩ := h
      have hg : Grown gs x.1 := by
        split at hx
        · exact feedOutside_grows hx
        · exact feedInside_grows hx
        · exact feedTail_grows hx
      split at h
      · simp only [Res.pure_eq, Res.ok.injEq] at h; subst h; exact hg
      · exact hg.trans (ih _ _ _ h)

theorem stitch_rising : Rising Grown (stitchIter collect) := by
  refine ⟨fun _ => List.prefix_rfl, fun _ _ _ h1 h2 => h1.trans h2, ?_⟩
  intro s d r h
  rw [stitchIter, Res.bind_eq_ok] at h
  obtain ⟨g, hg, h⟩ := h
  simp only [Res.pure_eq, Res.ok.injEq] at h
  subst h
  rw [stitchFeed] at hg
  split at hg
  · simp only [Res.pure_eq, Res.ok.injEq] at hg; subst hg; exact List.prefix_rfl
  · exact feedLoop_grows _ _ _ _ hg

theorem plain_rising : Rising (fun a b : Bytes => a <+: b) (fun s d => .ok (collect s d)) := by
  refine ⟨fun _ => List.prefix_rfl, fun _ _ _ h1 h2 => h1.trans h2, ?_⟩
  intro s d r h
  cases h
  exact List.prefix_append _ _

theorem iterStitch_rises {ps : Nat} : ∀ (gs : List GSeg) (s b : Stitch Bytes), iterStitch ps collect gs s = .ok b → Grown s b := by
  intro gs
  induction gs with
  | nil => intro s b h; cases h; exact List.prefix_rfl
  | cons g gs ih =>
    intro s b h
    rw [iterStitch, Res.bind_eq_ok] at h
    obtain ⟨r, hr, h⟩ := h
    have h1 := readGZChunk_rises stitch_rising hr
    split at h
    · simp only [Res.pure_eq, Res.ok.injEq] at h; subst h; exact h1
    · exact List.IsPrefix.trans h1 (ih _ _ h)

theorem iterStitchErr_below {ps : Nat} : ∀ (gs : List GSeg) (ts : List Fault) (s b : Stitch Bytes), iterStitch ps collect gs s = .ok b →
    ∃ a, iterStitchErr ps collect ts gs s = .ok a ∧ Grown a b := by
  intro gs
  induction gs with
  | nil => intro ts s b h; exact ⟨b, h, List.prefix_rfl⟩
  | cons g gs ih =>
    intro ts s b h
    rw [iterStitch, Res.bind_eq_ok] at h
    obtain ⟨r, hr, h⟩ := h
    obtain ⟨a, ha, hab⟩ := readGZChunkErr_below stitch_rising (ts.headD none) hr
    rw [iterStitchErr, ha, Res.ok_bind]
    have hrest : Grown r.1 b := by
      split at h
      · simp only [Res.pure_eq, Res.ok.injEq] at h; subst h; exact List.prefix_rfl
      · exact iterStitch_rises _ _ _ h
    rcases hab with rfl | ⟨h1, h2⟩
    · split at h
      · next hz => rw [if_pos hz]; exact ⟨b, h, List.prefix_rfl⟩
      · next hz => rw [if_neg hz]; exact ih _ _ _ h
    · rw [if_pos h1]
      exact ⟨a.1, rfl, List.IsPrefix.trans h2 hrest⟩

theorem fini_out (g : Stitch Bytes) : ∃ T, (stitchFini collect g).1 = g.out ++ T ∧ T.length ≤ 13 := by
  rw [stitchFini]
  split
  · exact ⟨_, rfl, by simp [leEnc_length]⟩
  · exact ⟨[], by simp, by simp⟩

/-- C106, with `-z`, whichever calls of read(2) fail: the program ends with status 0 if it does without errors, and what it writes is a
beginning of the gzip file, followed by at most the 13 bytes that complete a gzip file. -/
theorem C106_beginning_partial (env : Env) (cut : Bytes → List Bytes) (ts : List Fault) (gj : GJ) (full : Bytes)
    (h : getObj env cut gj true = .ok full) :
    ∃ P T, getObjErr env cut ts gj true = .ok (P ++ T) ∧ P <+: full ∧ T.length ≤ 13 ∧ (gj.segs.length = 1 → T = []) := by
  have hcol : (getIter : Bytes → Bytes → Bytes × Int) = _root_.Verif.Gzip.collect := rfl
  rw [getObj, hcol] at h
  simp only [Res.bind_eq_ok, if_true, Res.pure_eq, Res.ok.injEq] at h
  obtain ⟨h1, e1, h9, e9, d, hd, rfl⟩ := h
  have key : ∃ P T, getjobIterateErr env.ps cut ts gj collect [] true = .ok (P ++ T) ∧ P <+: d ∧ T.length ≤ 13 ∧ (gj.segs.length = 1 → T = []) := by
    rw [getjobIterate] at hd
    rw [getjobIterateErr]
    simp only [Bool.true_eq_false, if_false] at hd ⊢
    generalize gj.segs = gs at hd ⊢
    have many : (∃ st, iterStitch env.ps collect gs (stitchNew collect []) = .ok st ∧ (stitchFini collect st).1 = d) →
        ∃ P T, (iterStitchErr env.ps collect ts gs (stitchNew collect []) >>= fun st => Res.ok (stitchFini collect st).1) = .ok (P ++ T) ∧
          P <+: d ∧ T.length ≤ 13 := by
      rintro ⟨st, hst, rfl⟩
      obtain ⟨a, ha, hab⟩ := iterStitchErr_below gs ts _ _ hst
      obtain ⟨T, hT, hl⟩ := fini_out a
      obtain ⟨T', hT', -⟩ := fini_out st
      refine ⟨a.out, T, ?_, ?_, hl⟩
      · rw [ha, Res.ok_bind, hT]
      · rw [hT']; exact List.IsPrefix.trans hab (List.prefix_append _ _)
    match gs, hd, many with
    | [], hd, many =>
      simp only [Res.bind_eq_ok, Res.pure_eq, Res.ok.injEq] at hd
      obtain ⟨P, T, a, b, c⟩ := many hd
      exact ⟨P, T, a, b, c, by simp⟩
    | [g], hd, _ =>
      simp only [Res.bind_eq_ok, Res.pure_eq, Res.ok.injEq] at hd
      obtain ⟨r, hr, rfl⟩ := hd
      obtain ⟨a, ha, hab⟩ := readGZChunkErr_below plain_rising (ts.headD none) hr
      refine ⟨a.1, [], ?_, ?_, by simp, by simp⟩
      · simp only [ha, Res.ok_bind, Res.pure_eq, List.append_nil]
      · rcases hab with rfl | ⟨_, h2⟩
        · exact List.prefix_rfl
        · exact h2
    | g :: g' :: gs, hd, many =>
      simp only [Res.bind_eq_ok, Res.pure_eq, Res.ok.injEq] at hd
      obtain ⟨P, T, a, b, c⟩ := many hd
      exact ⟨P, T, a, b, c, by simp⟩
  obtain ⟨P, T, a, b⟩ := key
  refine ⟨P, T, ?_, b⟩
  rw [getObjErr, e1, e9, hcol]
  simp only [Res.ok_bind, a, if_true, Res.pure_eq]

/-- One segment of 70 bytes, read in pieces of 32, when the third call fails: `get -z` writes the first 64 of them and ends with status 0. -/
example (env : Env) (cut : Bytes → List Bytes) (hps : env.ps = 1) :
    let rs : Rs := { file := List.replicate 80 7, pos := 4, bodylen := 70, whr := .body }
    let seg : GSeg := ⟨rs, ⟨b!"ab", []⟩, 0, [], 1⟩
    let gj : GJ := ⟨b!"ab", .notFound, [seg]⟩
    getObj env cut gj true = .ok (List.replicate 70 7) ∧ getObjErr env cut [some 2] gj true = .ok (List.replicate 64 7) := by
  intro rs seg gj
  have h : ∀ ts, getjobIterateErr env.ps cut ts gj getIter [] true = getjobIterateErr 1 (fun _ => []) ts gj getIter [] true := by
    intro ts; rw [hps]; rfl
  have h' : getjobIterate env.ps cut gj getIter [] true = getjobIterate 1 (fun _ => []) gj getIter [] true := by
    rw [hps]; rfl
  have e : getjobIterate 1 (fun _ => []) gj getIter [] true = .ok (List.replicate 70 7) := by decide +kernel
  have e' : getjobIterateErr 1 (fun _ => []) [some 2] gj getIter [] true = .ok (List.replicate 64 7) := by decide +kernel
  constructor
  · rw [getObj, h', e]; rfl
  · rw [getObjErr, h, e']; rfl

/-- A body of 70 bytes, read in pieces of 32: nothing fails, the third call fails, the first call fails.  What is returned tells the
difference, but with one segment nobody looks at it (getjob.c:257). -/
theorem C106_counterexample :
    let rs : Rs := { file := List.replicate 80 7, pos := 4, bodylen := 70, whr := .body }
    let f : ByteIter Bytes := fun s d => .ok (s ++ d, 0)
    let see (r : Res (Bytes × Rs × Nat)) : Option (Bytes × Nat) := match r with | .ok (d, _, n) => some (d, n) | _ => none
    see (readGZChunkErr 1 f none rs []) = some (List.replicate 70 7, 70) ∧
    see (readGZChunkErr 1 f (some 2) rs []) = some (List.replicate 64 7, 0) ∧
    see (readGZChunkErr 1 f (some 0) rs []) = some ([], 0) := by
  decide +kernel

end Verif.Props.ReadFaults
