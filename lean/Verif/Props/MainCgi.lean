/-
Property C65: the CGI program answers with the object, and with nothing else.
-/
import Verif.Model.MainCgi
import Verif.Spec.Cgi
import Verif.Props.Sound

namespace Verif.Props
open Verif Header Gzip Ident Index Wsilo Segjob Getjob Spec MainStore Rsilo Inflate MainCgi
open Verif.Spec.Cgi (Response readResponse respLoop)

/-! ### The text of an answer -/

theorem respLoop_line (fs : List (Bytes × Bytes)) (l rest : Bytes) (h : (10 : UInt8) ∉ l) : ∀ (cur : Bytes) (_ : cur ++ l ≠ []),
    respLoop cur fs (l ++ 10 :: rest) =
      match Spec.Cgi.field (cur ++ l) with
      | none => none
      | some f => respLoop [] (fs ++ [f]) rest := by
  induction l with
  | nil =>
    intro cur hn
    rw [List.append_nil] at hn ⊢
    rw [List.nil_append, respLoop, if_neg (by simp), if_neg hn]
    cases Spec.Cgi.field cur <;> rfl
  | cons c l ih =>
    intro cur hn
    rw [List.cons_append, respLoop, if_pos (by intro hc; exact h (by simp [hc])), ih (fun hm => h (by simp [hm])) _ (by simp), List.append_assoc]
    rfl

theorem field_of (n v : Bytes) (h : (58 : UInt8) ∉ n) : Spec.Cgi.field (n ++ [58, 32] ++ v) = some (n, v) := by
  have ht : (n ++ [58, 32] ++ v).takeWhile (· ≠ 58) = n := by
    rw [List.append_assoc, List.takeWhile_append_of_pos (by intro c hc; simp; rintro rfl; exact h hc)]
    simp
  unfold Spec.Cgi.field
  simp only [ht]
  rw [List.append_assoc, List.drop_left, if_pos (by rfl), ← List.append_assoc]
  congr 2
  rw [show n.length + 2 = (n ++ [58, 32]).length by simp, List.drop_left]

theorem parse_field (fs : List (Bytes × Bytes)) (n v rest : Bytes) (hn : (58 : UInt8) ∉ n) (hn2 : (10 : UInt8) ∉ n) (hv : (10 : UInt8) ∉ v) :
    respLoop [] fs (n ++ [58, 32] ++ v ++ 10 :: rest) = respLoop [] (fs ++ [(n, v)]) rest := by
  rw [respLoop_line fs _ _ (by simp [hn2, hv]) [] (by simp), List.nil_append, field_of n v hn]

/-- The answer with an object: the fields and the body. -/
def okResponse (ct : Bytes) (gz : Bool) (body : Bytes) : Response :=
  ⟨[(b!"Content-Type", ct)] ++ (if gz then [(b!"Content-Encoding", b!"gzip")] else []) ++ [(b!"Content-Length", dec body.length), (b!"Status", b!"200")], body⟩

/-- The same as text. -/
def okText (ct : Bytes) (gz : Bool) (body : Bytes) : Bytes :=
  b!"Content-Type: " ++ ct ++ b!"\n" ++ (if gz then b!"Content-Encoding: gzip\n" else []) ++ b!"Content-Length: " ++ dec body.length ++ b!"\nStatus: 200\n\n" ++ body

theorem dec_no_lf (n : Nat) : (10 : UInt8) ∉ dec n := by
  intro h
  exact absurd (dec_digits n _ h) (by decide)

/-- C65, the form: what the client gets are a content type, a length, which is that of the body, the status and the body. -/
theorem C65_form (ct : Bytes) (gz : Bool) (body : Bytes) (h : (10 : UInt8) ∉ ct) : readResponse (okText ct gz body) = some (okResponse ct gz body) := by
  unfold readResponse okText
  have e1 : ∀ r : Bytes, b!"Content-Length: " ++ dec body.length ++ b!"\nStatus: 200\n\n" ++ r =
      b!"Content-Length" ++ [58, 32] ++ dec body.length ++ 10 :: (b!"Status" ++ [58, 32] ++ b!"200" ++ 10 :: (10 :: r)) := by intro r; simp
  have e2 : ∀ (fs : List (Bytes × Bytes)) (r : Bytes), respLoop [] fs (b!"Content-Length: " ++ dec body.length ++ b!"\nStatus: 200\n\n" ++ r) =
      some ⟨fs ++ [(b!"Content-Length", dec body.length)] ++ [(b!"Status", b!"200")], r⟩ := by
    intro fs r
    rw [e1, parse_field _ _ _ _ (by decide) (by decide) (dec_no_lf _), parse_field _ _ _ _ (by decide) (by decide) (by decide), respLoop,
      if_neg (by simp), if_pos rfl]
  cases gz with
  | false =>
    have e : b!"Content-Type: " ++ ct ++ b!"\n" ++ (if false = true then b!"Content-Encoding: gzip\n" else []) ++ b!"Content-Length: " ++ dec body.length ++ b!"\nStatus: 200\n\n" ++ body =
        b!"Content-Type" ++ [58, 32] ++ ct ++ 10 :: (b!"Content-Length: " ++ dec body.length ++ b!"\nStatus: 200\n\n" ++ body) := by simp
    rw [e, parse_field _ _ _ _ (by decide) (by decide) h, e2]
    rfl
  | true =>
    have e : b!"Content-Type: " ++ ct ++ b!"\n" ++ (if true = true then b!"Content-Encoding: gzip\n" else []) ++ b!"Content-Length: " ++ dec body.length ++ b!"\nStatus: 200\n\n" ++ body =
        b!"Content-Type" ++ [58, 32] ++ ct ++ 10 :: (b!"Content-Encoding" ++ [58, 32] ++ b!"gzip" ++ 10 :: (b!"Content-Length: " ++ dec body.length ++ b!"\nStatus: 200\n\n" ++ body)) := by simp
    rw [e, parse_field _ _ _ _ (by decide) (by decide) h, parse_field _ _ _ _ (by decide) (by decide) (by decide), e2]
    rfl

/-! ### The lengths -/

theorem numLoop_ok (l : Bytes) (hd : ∀ c ∈ l, isDigit c = true) : ∀ (r : Nat) {i : Int}, numLoop l r = .ok i →
    i = (l.foldl (fun n c => n * 10 + (c.toNat - 48)) r : Nat) := by
  induction l with
  | nil => intro r i h; cases h; rfl
  | cons c cs ih =>
    intro r i h
    have hc := hd c (by simp)
    simp only [isDigit, Bool.and_eq_true, decide_eq_true_eq] at hc
    have h1 : ¬ (c < 48 ∨ c > 57) := by
      have a1 : (48 : UInt8).toNat ≤ c.toNat := hc.1
      have a2 : c.toNat ≤ (57 : UInt8).toNat := hc.2
      rintro (h | h)
      · have : c.toNat < (48 : UInt8).toNat := h
        omega
      · have : (57 : UInt8).toNat < c.toNat := h
        omega
    rw [numLoop, if_neg h1] at h
    split at h
    · exact ih (fun c hc => hd c (by simp [hc])) _ h
    · cases h

theorem number_ok {h : Hdr} {name : Bytes} {n : Nat} (hg : headerGet h name = some (dec n)) {i : Int} (he : headerGetNumber h name = .ok i) : i = n := by
  rw [headerGetNumber, hg] at he
  have hv := decVal_dec n
  unfold decVal at hv
  rw [numLoop_ok _ (fun c hc => dec_digits n c hc) 0 he, hv]

theorem sumLen_ok {env : Env} {w : World} {n : Nat} {xs : List Item} {gs : List GSeg} (hg : GotItems w n xs gs) (ht : ∀ x ∈ xs, Told env x) :
    ∀ {i : Int}, sumLen false gs = .ok i → i = (xs.map (·.record.data)).flatten.length ∧ ∀ x ∈ xs, x.record.data ≠ [] := by
  induction hg with
  | nil => intro i h; cases h; exact ⟨rfl, fun x hx => (by cases hx)⟩
  | cons h h2 ih =>
    rename_i x g xs gs
    intro i hs
    obtain ⟨_, _, e1, e2, -⟩ := gseg_file h
    rw [sumLen, if_neg (by simp), e2] at hs
    simp only [Res.bind_eq_ok, Res.check_eq_ok, Res.pure_eq, Res.ok.injEq] at hs
    obtain ⟨im, k1, -, k2, r, k3, rfl⟩ := hs
    have k4 := number_ok (ht x (by simp)).2 k1
    obtain ⟨k5, k6⟩ := ih (fun x hx => ht x (by simp [hx])) k3
    subst k4
    have k2 := of_decide_eq_true k2
    refine ⟨by rw [k5]; simp, ?_⟩
    intro y hy
    rcases List.mem_cons.1 hy with rfl | hy
    · intro hn
      rw [hn] at k2
      exact absurd k2 (by decide)
    · exact k6 y hy

theorem fmtInt_nat (n : Nat) : fmtInt (n : Int) = dec n := by
  unfold fmtInt
  rw [if_neg (by omega), Int.natAbs_natCast]

theorem header_first {w : World} {n : Nat} {x : Item} {ys : List Item} {gj : GJ} (g1 : GotItems w n (x :: ys) gj.segs) : gjHeader gj true = .ok x.hdr := by
  have := gotItems_hdr g1
  unfold gjHeader
  cases hs : gj.segs with
  | nil => rw [hs] at this; cases this
  | cons s ss =>
    rw [hs, List.map_cons, List.map_cons, List.cons.injEq] at this
    simp [this.1]

theorem segmented_iff {w : World} {n : Nat} {x : Item} {ys : List Item} {gj : GJ} (g1 : GotItems w n (x :: ys) gj.segs) : gjIsSegmented gj = decide (ys ≠ []) := by
  have := congrArg List.length (gotItems_hdr g1)
  simp only [List.length_map, List.length_cons] at this
  unfold gjIsSegmented
  rw [this]
  cases ys <;> simp

theorem member_gunzip {gz data : Bytes} (h : Member gz data) : gunzip gz = some data := by
  have := member_gunzip1 h []
  rw [List.append_nil] at this
  rw [gunzip, this]

/-- The content type that is announced. -/
def typeOf (h : Hdr) : Bytes := (headerGet h b!"Content-Type").getD b!"application/binary"

/-- What the body of the answer has to be, as is or compressed. -/
def BodyOf (gz : Bool) (body payload : Bytes) : Prop := if gz then gunzip body = some payload else body = payload

theorem answer_ok {env : Env} {w : World} {x : Item} {ys : List Item} {gj : GJ} (hps : 0 < env.ps) (g1 : GotItems w 1 (x :: ys) gj.segs)
    (hc : ∀ y ∈ x :: ys, y.record.Complete env.pfx y.hdr) (ht : ∀ y ∈ x :: ys, Told env y) {cut : Bytes → List Bytes} (hcut : ∀ b, (cut b).flatten = b)
    {gz : Bool} (hgz : gz = true → ys = []) {o : CgiOut} (h : answer env cut gj gz = .ok o) :
    ∃ body, o = .stdout (okText (typeOf x.hdr) gz body) ∧ BodyOf gz body ((x :: ys).map (·.record.data)).flatten := by
  unfold answer at h
  rw [header_first g1, Res.ok_bind, getIter_collect] at h
  cases gz with
  | true =>
    have := hgz rfl
    subst this
    obtain ⟨k1, k2⟩ := got_single hps g1 (hc x (by simp)) cut
    rw [k2, Res.ok_bind, k1, Res.ok_bind, fmtInt_nat] at h
    cases h
    refine ⟨x.record.bgz, rfl, ?_⟩
    show gunzip x.record.bgz = some [x.record.data].flatten
    rw [List.flatten_singleton]
    exact member_gunzip (hc x (by simp)).body
  | false =>
    rw [Res.bind_eq_ok] at h
    obtain ⟨i, h1, h⟩ := h
    rw [got_plain g1 hc cut hcut, Res.ok_bind] at h
    rw [(sumLen_ok g1 ht h1).1, fmtInt_nat] at h
    cases h
    exact ⟨_, rfl, rfl⟩

theorem answer_of {env : Env} {w : World} {x : Item} {ys : List Item} {gj : GJ} (hps : 0 < env.ps) (g1 : GotItems w 1 (x :: ys) gj.segs)
    (hc : ∀ y ∈ x :: ys, y.record.Complete env.pfx y.hdr) (ht : ∀ y ∈ x :: ys, Told env y) {cut : Bytes → List Bytes} (hcut : ∀ b, (cut b).flatten = b)
    {gz : Bool} (hgz : gz = true → ys = []) (hl : gz = false → ∀ y ∈ x :: ys, y.record.data ≠ [] ∧ y.record.data.length < 2 ^ 63) :
    ∃ body, answer env cut gj gz = .ok (.stdout (okText (typeOf x.hdr) gz body)) ∧ BodyOf gz body ((x :: ys).map (·.record.data)).flatten := by
  have : ∃ o, answer env cut gj gz = .ok o := by
    unfold answer
    rw [header_first g1, Res.ok_bind, getIter_collect]
    cases gz with
    | true =>
      have := hgz rfl
      subst this
      obtain ⟨k1, k2⟩ := got_single hps g1 (hc x (by simp)) cut
      rw [k2, Res.ok_bind, k1, Res.ok_bind]
      exact ⟨_, rfl⟩
    | false =>
      rw [totalLength, sumLen_items g1 (fun y hy => ⟨(hl rfl y hy).1, number_dec (ht y hy).2 (hl rfl y hy).2⟩), Res.ok_bind, got_plain g1 hc cut hcut, Res.ok_bind]
      exact ⟨_, rfl⟩
  obtain ⟨o, ho⟩ := this
  obtain ⟨body, rfl, hb⟩ := answer_ok hps g1 hc ht hcut hgz ho
  exact ⟨body, ho, hb⟩

/-! ### `strstr` -/

/-- C65: `strstr` is what the manual says. -/
theorem C65_strstr (l n : Bytes) : strstr l n = true ↔ n <:+: l := by
  induction l with
  | nil => simp [strstr]
  | cons c l ih =>
    rw [strstr, Bool.or_eq_true, List.isPrefixOf_iff_prefix, ih, List.infix_cons_iff]

/-- Compressed if the client can do that. -/
def Accepts (e : CgiEnv) : Prop := ∃ v, e.accept = some v ∧ b!"gzip" <:+: v

theorem accepts_iff (e : CgiEnv) : (e.accept.map (strstr · b!"gzip")).getD false = true ↔ Accepts e := by
  unfold Accepts
  cases e.accept with
  | none => simp
  | some v => simp only [Option.map_some, Option.getD_some, C65_strstr, Option.some.injEq, exists_eq_left']

/-- A request that is answered. -/
def Request (e : CgiEnv) (q : Bytes) : Prop :=
  e.gateway = some b!"CGI/1.1" ∧ e.method = some b!"GET" ∧ ∃ p, e.path = some p ∧ (p = 47 :: q ∨ p = q ∧ q.head? ≠ some 47)

theorem dropSlash_iff (p q : Bytes) : (p = 47 :: q ∨ p = q ∧ q.head? ≠ some 47) ↔ dropSlash p = q := by
  unfold dropSlash
  cases p with
  | nil =>
    simp only [List.head?_nil]
    constructor
    · rintro (h | ⟨rfl, -⟩)
      · cases h
      · rfl
    · intro h
      right
      refine ⟨by simpa using h, ?_⟩
      rw [← h]; simp
  | cons c p =>
    simp only [List.head?_cons, Option.some.injEq, List.drop_one, List.tail_cons]
    by_cases hc : c = 47
    · subst hc
      rw [if_pos rfl]
      constructor
      · rintro (h | ⟨rfl, h⟩)
        · exact (List.cons.inj h).2
        · simp at h
      · rintro rfl
        exact .inl rfl
    · rw [if_neg hc]
      constructor
      · rintro (h | ⟨h, -⟩)
        · exact absurd (List.cons.inj h).1 hc
        · exact h
      · rintro rfl
        exact .inr ⟨rfl, by simpa using hc⟩

theorem mainCgi_request {env : Env} {fuel : Nat} {cut : Bytes → List Bytes} {w : World} {e : CgiEnv} {q : Bytes} (h : Request e q) :
    mainCgi env fuel cut w e = serve env fuel cut w q ((e.accept.map (strstr · b!"gzip")).getD false) := by
  obtain ⟨h1, h2, p, h3, h4⟩ := h
  unfold mainCgi
  rw [if_neg (by simp [h1]), if_neg (by simp [h2]), h3]
  simp only
  rw [(dropSlash_iff p q).1 h4]

/-- C65: anything but a request for an object is refused. -/
theorem C65_refused (env : Env) (fuel : Nat) (cut : Bytes → List Bytes) (w : World) (e : CgiEnv) :
    mainCgi env fuel cut w e = .ok .usage ↔ ∀ q, ¬ Request e q := by
  constructor
  · intro h q hq
    rw [mainCgi_request hq, serve, Res.bind_eq_ok] at h
    obtain ⟨g, -, h⟩ := h
    cases g with
    | error er => cases h
    | job gj =>
      simp only at h
      unfold answer at h
      simp only [Res.bind_eq_ok] at h
      obtain ⟨_, -, _, -, _, -, h⟩ := h
      cases h
  · intro h
    unfold mainCgi
    split
    · rfl
    · rename_i h1
      split
      · rfl
      · rename_i h2
        split
        · rfl
        · rename_i p hp
          exact absurd ⟨Decidable.not_not.1 h1, Decidable.not_not.1 h2, p, hp, (dropSlash_iff p _).2 rfl⟩ (h (dropSlash p))

/-- The page for an error, which says nothing but which of eight errors it is. -/
def errResponse (e : GErr) : Response :=
  ⟨[(b!"Content-Type", b!"text/html"), (b!"Status", b!"501 Error")], b!"<html><pre>" ++ errText e ++ b!"\n</pre></html>"⟩

/-- C65: the page for an error. -/
theorem C65_error (e : GErr) : readResponse (errPage e) = some (errResponse e) := by
  cases e with
  | badId e => cases e <;> decide +kernel
  | notFound => decide +kernel
  | isWarcinfo => decide +kernel
  | isContinuation => decide +kernel
  | outOfOrder => decide +kernel

/-- C65: the eight pages differ, and what is in between the tags is text without markup. -/
theorem C65_error_texts (e e' : GErr) : (errPage e = errPage e' → e = e') ∧ ∀ c ∈ errText e, c ≠ 60 ∧ c ≠ 62 ∧ c ≠ 38 ∧ c ≠ 10 := by
  constructor
  · intro h
    have h : errText e = errText e' := by
      unfold errPage at h
      exact List.append_cancel_left (List.append_cancel_right h)
    cases e with
    | badId a => cases e' with
      | badId b => cases a <;> cases b <;> first | rfl | exact absurd h (by decide)
      | _ => cases a <;> exact absurd h (by decide)
    | _ => cases e' with
      | badId b => cases b <;> exact absurd h (by decide)
      | _ => first | rfl | exact absurd h (by decide)
  · cases e with
    | badId a => cases a <;> decide
    | _ => decide

/-- C65: whatever the program answers, in an archive made by `store` and housekeeping: the page for an error, or one of the objects with that ID, all of it. -/
theorem C65_sound_partial {σ : Type} {env : Env} {D : Deflater σ} (hz : Zlib D) (he : EnvOk env) {cfg : List Config.Section} (hl : Listed env cfg)
    {w0 w : World} (hw0 : w0.dir = {}) (hs0 : ∀ n, w0.silos n = none) (h0 : Session env D cfg w0 w) :
    ∃ ops A, ArchInv env w ops A ∧ (A.length < 2 ^ 31 → FirstsApart A → ∀ e q, Request e q → (∀ id, idxValidId env.pfx env.idSize q = .ok id → AllSafe w A id) →
      ∀ fuel cut, (∀ b, (cut b).flatten = b) → ∀ o, mainCgi env fuel cut w e = .ok o →
        (∃ er, getjobNew env.ps env.pfx env.idSize fuel w q = .ok (.error er) ∧ o = .stdout (errPage er)) ∨
        (∃ x ys id body gz, idxValidId env.pfx env.idSize q = .ok id ∧ (∀ y ∈ x :: ys, y ∈ A) ∧ Honest env true x ys ∧ SameId x.hdr.id id ∧
          o = .stdout (okText (typeOf x.hdr) gz body) ∧ (gz = true ↔ Accepts e ∧ ys = []) ∧ BodyOf gz body ((x :: ys).map (·.record.data)).flatten)) := by
  obtain ⟨ops, A, ha, hmain⟩ := C64_found_partial hz he hw0 hs0 (C59_history he hl h0)
  refine ⟨ops, A, ha, ?_⟩
  intro hfew hap e q hreq hseek fuel cut hcut o h
  rw [mainCgi_request hreq, serve, Res.bind_eq_ok] at h
  obtain ⟨g, hg, h⟩ := h
  cases g with
  | error er =>
    cases h
    exact .inl ⟨er, hg, rfl⟩
  | job gj =>
    right
    have hq : ∃ id, idxValidId env.pfx env.idSize q = .ok id := by
      unfold getjobNew at hg
      split at hg
      · cases hg
      · rename_i id hid
        exact ⟨id, hid⟩
    obtain ⟨id, hq⟩ := hq
    obtain ⟨x, ys, m1, m2, m3, m4, -⟩ := hmain hfew hap q id hq (hseek id hq) fuel gj hg
    simp only at h
    rw [segmented_iff m4] at h
    obtain ⟨jh, ident, n1, n2, n3, n4⟩ := m2
    have hps : 0 < env.ps := by
      have := (ha.there x (m1 x (by simp))).2.2.packed
      omega
    obtain ⟨body, k1, k2⟩ := answer_ok (gz := (e.accept.map (strstr · b!"gzip")).getD false && !decide (ys ≠ [])) hps m4 (fun y hy => (ha.there y (m1 y hy)).2.1) n2.told hcut (by
      intro hh
      rw [Bool.and_eq_true] at hh
      simpa using hh.2) h
    refine ⟨x, ys, id, body, _, hq, m1, ⟨jh, ident, n1, n2, n3, n4⟩, m3, k1, ?_, k2⟩
    rw [Bool.and_eq_true, accepts_iff]
    simp

/-- C65: an object that was stored is served: with its type, its length, and its contents, compressed if the client accepts that and the object is in one
record.  No segment may be empty, unless it is served compressed. -/
theorem C65_served_partial {σ : Type} {env : Env} {D : Deflater σ} (hz : Zlib D) (he : EnvOk env) {cfg : List Config.Section} (hl : Listed env cfg)
    {w0 w w1 w2 : World} (hw0 : w0.dir = {}) (h0 : Session env D cfg w0 w) {fuel : Nat} {opts : List Opt} {i : Input}
    (hi : (∀ c ∈ i.pieces, c ≠ []) ∧ i.pieces.flatten.length + env.max < 2 ^ 63) {uri : Bytes}
    (e : mainStore env D fuel cfg w opts (some i) = .ok (w1, .printed uri)) (h2 : Session env D cfg w1 w2)
    (hnew : ∀ gj, getjobNew env.ps env.pfx env.idSize fuel w uri ≠ .ok (.job gj)) :
    ∃ a ref id ops A x ys, Means opts a ∧ Granted env fuel cfg w a ref ∧ uri = env.pfx ++ id ∧ ArchInv env w2 ops A ∧ Holds env A id i.pieces.flatten x ys ∧
      (Clear env w2 A id x ys → (∀ y ∈ x :: ys, y.record.data ≠ []) → ∀ q, idxValidId env.pfx env.idSize q = .ok id → ∀ fuel2, ys.length < fuel2 →
        ∀ cut : Bytes → List Bytes, (∀ b, (cut b).flatten = b) → ∀ c, Request c q →
        ∃ gz body, (gz = true ↔ Accepts c ∧ ys = []) ∧ mainCgi env fuel2 cut w2 c = .ok (.stdout (okText a.mt gz body)) ∧ BodyOf gz body i.pieces.flatten) := by
  obtain ⟨a, i', ref, h, hm, hii, hp, hg, hh, ej, e⟩ := (C59_store he).1 e
  cases hii
  obtain ⟨hj, -⟩ := granted_good he hl hg hh ej
  have hc : GoodInput env i.pieces := ⟨hp, hi⟩
  have hlater : ∀ {u v : World}, Stores env D true u v → Later env D u v := fun hs => stores_later hs
  have hinv0 : ArchInv env w0 [] [] := ⟨by rw [hw0]; rfl, fun o ho => (by cases ho), rfl, fun x hx => (by cases hx), fun x hx => (by cases hx)⟩
  obtain ⟨is, X, ha, -⟩ := later_inv hz he (hlater (C59_history he hl h0)) hinv0
  obtain ⟨id, u1, u2, -, u4⟩ := store_adds hz he hj hc ha e
  obtain ⟨-, u6, u7⟩ := (C11_valid_id _ _ _ _).1 u2
  have hsame : getjobNew env.ps env.pfx env.idSize fuel w id = getjobNew env.ps env.pfx env.idSize fuel w uri := by
    have hb : idxValidId env.pfx env.idSize id = .ok id := by
      obtain ⟨p, hp⟩ := he.slash
      exact valid_bare _ _ _ (by rw [hp]; simp) u6 u7
    unfold getjobNew
    rw [hb, u2]
  rcases u4 with ⟨⟨gj, u4⟩, -⟩ | ⟨-, is2, X2, x, ys, a1, -, a3, a4, -, -, a7⟩
  · rw [hsame] at u4
    exact absurd u4 (hnew gj)
  · obtain ⟨is3, X3, b1, -⟩ := later_inv hz he (hlater (C59_history he hl h2)) a1
    have hho := holds_mono (B := [] ++ X ++ X2 ++ X3) (fun x hx => List.mem_append_left _ hx) a3
    refine ⟨a, ref, id, _, _, x, ys, hm, hg, u1, b1, hho, ?_⟩
    intro hcl hne q hq fuel2 hf cut hcut c hreq
    have hgt := gettable_of he b1 u6 u7 hho.1 hcl
    obtain ⟨gs, g1, g2⟩ := getjobNew_object hgt.there hq hgt.object hgt.first hgt.chain hgt.find hgt.finds hf
    have ht := a7.2.2.2.2
    have hps : 0 < env.ps := by
      have := (hgt.there x hgt.object.1).2.2.packed
      omega
    have hlen : ∀ y ∈ x :: ys, y.record.data.length < 2 ^ 63 := by
      intro y hy
      have h1 : y.record.data.length ≤ ((x :: ys).map (·.record.data)).flatten.length := by
        rw [List.length_flatten]
        exact List.le_sum_of_mem (List.mem_map.2 ⟨_, List.mem_map.2 ⟨y, hy, rfl⟩, rfl⟩)
      rw [hho.2.1] at h1
      have := hi.2
      omega
    have hty : typeOf x.hdr = a.mt := by
      unfold typeOf
      rw [ht.kept _ (by unfold Kept Free Other; decide), hh.get]
      rfl
    rw [mainCgi_request hreq, serve, g2, Res.ok_bind]
    simp only
    rw [segmented_iff (gj := { id := id, err := .notFound, segs := gs }) g1, ← hty, ← hho.2.1]
    obtain ⟨body, k1, k2⟩ := answer_of (gz := (c.accept.map (strstr · b!"gzip")).getD false && !decide (ys ≠ [])) hps (gj := { id := id, err := .notFound, segs := gs }) g1
      (fun y hy => (hgt.there y (object_mem hgt.object y hy)).2.1) ht.told hcut (by
      intro hh
      rw [Bool.and_eq_true] at hh
      simpa using hh.2) (fun _ y hy => ⟨hne y hy, hlen y hy⟩)
    refine ⟨_, body, ?_, k1, k2⟩
    rw [Bool.and_eq_true, accepts_iff]
    simp

end Verif.Props
