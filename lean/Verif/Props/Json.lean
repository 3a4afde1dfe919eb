/-
Property C93: what is written as JSON is JSON, and says what it should.
-/
import Verif.Spec.Json
import Verif.Model.Info
import Verif.Proofs.Dec
import Verif.Props.AuditArch
import Verif.Props.StowDataExample
import Verif.Model.StowMain
import Verif.Model.Config

namespace Verif.Props
open Verif Stow StowData Spec.Json
open _root_.Verif.Info (infoOut)

/-- A text that can be written between quotation marks as it is. -/
def PlainText (b : Bytes) : Prop := ∀ c ∈ b, 32 ≤ c ∧ c ≠ 34 ∧ c ≠ 92

theorem skip_ws : ∀ (w : Bytes) {b : Bytes}, (∀ c ∈ w, isWs c = true) → skip (w ++ b) = skip b
  | [], _, _ => rfl
  | c :: w, b, h => by
    rw [List.cons_append, skip, if_pos (h c (by simp))]
    exact skip_ws w fun d hd => h d (by simp [hd])

theorem string_plain : ∀ {s r : Bytes}, PlainText s → Spec.Json.string (s ++ 34 :: r) = some (s, r)
  | [], r, _ => rfl
  | c :: s, r, h => by
    obtain ⟨h1, h2, h3⟩ := h c (by simp)
    have ih := string_plain (s := s) (r := r) fun d hd => h d (by simp [hd])
    rw [List.cons_append, Spec.Json.string]
    · rw [if_neg (by
        intro k
        rcases k with k | k
        · exact absurd (UInt8.lt_iff_toNat_lt.1 k) (by have := UInt8.le_iff_toNat_le.1 h1; omega)
        · exact h3 k), ih]
      rfl
    · exact h2
    · intros; exact absurd ‹c = 92› h3
    · intros; exact absurd ‹c = 92› h3

theorem value_str {n : Nat} {s r : Bytes} (h : PlainText s) : value (n + 1) (34 :: (s ++ 34 :: r)) = some (.str s, r) := by
  rw [value, string_plain h]
  rfl

/-- A member that is followed by others. -/
theorem members_more {n : Nat} {w k t r r' : Bytes} {v : J} {l : List (Bytes × J)} (hw : ∀ c ∈ w, isWs c = true) (hk : PlainText k)
    (hv : value n (skip t) = some (v, 44 :: r)) (hr : members n r = some (l, r')) :
    members (n + 1) (w ++ 34 :: (k ++ 34 :: 58 :: t)) = some ((k, v) :: l, r') := by
  rw [members, skip_ws w hw]
  simp only [skip, isWs, show ¬ ((34 : UInt8) = 32 ∨ (34 : UInt8) = 9 ∨ (34 : UInt8) = 10 ∨ (34 : UInt8) = 13) by decide, decide_false, Bool.false_eq_true, if_false, string_plain hk]
  simp only [show ¬ ((58 : UInt8) = 32 ∨ (58 : UInt8) = 9 ∨ (58 : UInt8) = 10 ∨ (58 : UInt8) = 13) by decide, decide_false, Bool.false_eq_true, if_false, hv]
  simp only [skip, isWs, show ¬ ((44 : UInt8) = 32 ∨ (44 : UInt8) = 9 ∨ (44 : UInt8) = 10 ∨ (44 : UInt8) = 13) by decide, decide_false, Bool.false_eq_true, if_false, hr]
  rfl

/-- The last member. -/
theorem members_last {n : Nat} {w k t r r' : Bytes} {v : J} (hw : ∀ c ∈ w, isWs c = true) (hk : PlainText k)
    (hv : value n (skip t) = some (v, r)) (hr : skip r = 125 :: r') :
    members (n + 1) (w ++ 34 :: (k ++ 34 :: 58 :: t)) = some ([(k, v)], r') := by
  rw [members, skip_ws w hw]
  simp only [skip, isWs, show ¬ ((34 : UInt8) = 32 ∨ (34 : UInt8) = 9 ∨ (34 : UInt8) = 10 ∨ (34 : UInt8) = 13) by decide, decide_false, Bool.false_eq_true, if_false, string_plain hk]
  simp only [show ¬ ((58 : UInt8) = 32 ∨ (58 : UInt8) = 9 ∨ (58 : UInt8) = 10 ∨ (58 : UInt8) = 13) by decide, decide_false, Bool.false_eq_true, if_false, hv, hr]

theorem digits_all : ∀ {b r : Bytes} {c : UInt8}, (∀ x ∈ b, Spec.Json.isDigit x = true) → Spec.Json.isDigit c = false → digits (b ++ c :: r) = (b, c :: r)
  | [], r, c, _, hc => by rw [List.nil_append, digits, if_neg (by rw [hc]; decide)]
  | x :: b, r, c, h, hc => by
    rw [List.cons_append, digits, if_pos (h x (by simp)), digits_all (fun y hy => h y (by simp [hy])) hc]

theorem dec_isDigit (n : Nat) : ∀ x ∈ dec n, Spec.Json.isDigit x = true := by
  intro x hx
  have := dec_digits n x hx
  unfold Verif.isDigit at this
  unfold Spec.Json.isDigit
  simpa using this

/-- A number, and a newline behind it. -/
theorem value_dec (n t : Nat) (r : Bytes) : value (n + 1) (dec t ++ 10 :: r) = some (.num (dec t), 10 :: r) := by
  obtain ⟨c, cs, hc⟩ : ∃ c cs, dec t = c :: cs := List.exists_cons_of_ne_nil (dec_ne_nil t)
  have hd := digits_all (r := r) (c := 10) (dec_isDigit t) (by decide)
  have hcd := dec_isDigit t c (by rw [hc]; simp)
  have hint : int (dec t ++ 10 :: r) = some (dec t, 10 :: r) := by
    unfold int
    rw [hd]
    rcases Nat.eq_zero_or_pos t with rfl | ht
    · rfl
    · obtain ⟨c', cs', e1, e2⟩ := dec_head ht
      rw [e1]
      split
      · rename_i h; cases h
      · rename_i h
        cases h
        exact absurd rfl e2
      · rfl
  have hnum : number (dec t ++ 10 :: r) = some (dec t, 10 :: r) := by
    have hm : minus (dec t ++ 10 :: r) = ([], dec t ++ 10 :: r) := by
      rw [hc, List.cons_append]
      unfold minus
      split
      · rename_i h
        cases h
        exact absurd hcd (by decide)
      · rfl
    unfold number
    rw [hm, hint]
    have hexp : exp (10 :: r) = some ([], 10 :: r) := by
      cases r with
      | nil => rfl
      | cons a r => rfl
    have hfr : frac (10 :: r) = some ([], 10 :: r) := rfl
    simp only [Option.bind_some, hfr, hexp, Option.map_some, List.nil_append, List.append_nil]
  rw [hc, List.cons_append] at hnum ⊢
  have hne : ∀ k : UInt8, Spec.Json.isDigit k = false → c ≠ k := by
    rintro k hk rfl
    rw [hcd] at hk
    cases hk
  rw [value]
  · rw [hnum]; rfl
  all_goals (intro _ h; injection h with h1 h2; exact absurd h1 (hne _ (by decide)))

theorem commaNl_cons (a b : Bytes) (l : List Bytes) : commaNl (a :: b :: l) = a ++ b!",\n" ++ commaNl (b :: l) := by
  rw [commaNl]
  intro h; cases h

/-- What the metadata says about a file that has changed. -/
def changedMember (g : Cfg) (p : Item × Bytes) : Bytes × J := (b!"sha256:" ++ p.1.digest, .str (b!"id:" ++ (g.sha p.2).take g.n))

theorem plain_append {a b : Bytes} (ha : PlainText a) (hb : PlainText b) : PlainText (a ++ b) := by
  intro c hc
  rcases List.mem_append.1 hc with h | h
  · exact ha c h
  · exact hb c h

theorem plain_lit {a : Bytes} (h : a.all (fun c => decide (32 ≤ c ∧ c ≠ 34 ∧ c ≠ 92)) = true) : PlainText a := by
  intro c hc
  exact of_decide_eq_true (List.all_eq_true.1 h c hc)

theorem changed_members (g : Cfg) (r : Bytes) : ∀ (l : List (Item × Bytes)) (n : Nat), l ≠ [] → l.length < n → (∀ p ∈ l, PlainText p.1.digest ∧ PlainText (g.sha p.2)) →
    members n (commaNl (l.map (changedLine g)) ++ b!"\n\t}" ++ r) = some (l.map (changedMember g), r)
  | [], _, h, _, _ => absurd rfl h
  | [p], n, _, hn, hp => by
    obtain ⟨n, rfl⟩ : ∃ m, n = m + 2 := ⟨n - 2, by simp at hn; omega⟩
    obtain ⟨p1, p2⟩ := hp p (by simp)
    have := members_last (n := n + 1) (w := b!"\t    ") (k := b!"sha256:" ++ p.1.digest) (t := 32 :: 34 :: ((b!"id:" ++ (g.sha p.2).take g.n) ++ 34 :: (b!"\n\t}" ++ r)))
      (r := b!"\n\t}" ++ r) (r' := r) (v := .str (b!"id:" ++ (g.sha p.2).take g.n)) (by decide) (plain_append (plain_lit (by decide)) p1)
      (by
        show value (n + 1) (34 :: _) = _
        exact value_str (plain_append (plain_lit (by decide)) fun c hc => p2 c (List.mem_of_mem_take hc)))
      rfl
    refine (congrArg (members _) ?_).trans this
    simp only [List.map_cons, List.map_nil, commaNl, changedLine, List.append_assoc]
    rfl
  | p :: q :: l, n, _, hn, hp => by
    obtain ⟨n, rfl⟩ : ∃ m, n = m + 2 := ⟨n - 2, by simp at hn; omega⟩
    obtain ⟨p1, p2⟩ := hp p (by simp)
    have ih := changed_members g r (q :: l) (n + 1) (by simp) (by simp at hn ⊢; omega) fun x hx => hp x (by simp at hx ⊢; exact .inr hx)
    have := members_more (n := n + 1) (w := b!"\t    ") (k := b!"sha256:" ++ p.1.digest)
      (t := 32 :: 34 :: ((b!"id:" ++ (g.sha p.2).take g.n) ++ 34 :: 44 :: (10 :: (commaNl ((q :: l).map (changedLine g)) ++ b!"\n\t}" ++ r))))
      (r := 10 :: (commaNl ((q :: l).map (changedLine g)) ++ b!"\n\t}" ++ r)) (r' := r) (v := .str (b!"id:" ++ (g.sha p.2).take g.n)) (by decide) (plain_append (plain_lit (by decide)) p1)
      (by
        show value (n + 1) (34 :: _) = _
        exact value_str (plain_append (plain_lit (by decide)) fun c hc => p2 c (List.mem_of_mem_take hc)))
      (by
        rw [← ih, members, members]
        rfl)
    refine (congrArg (members _) ?_).trans this
    rw [List.map_cons, List.map_cons, commaNl_cons, ← List.map_cons]
    simp only [changedLine, List.append_assoc]
    rfl

/-- What the last three members say. -/
def lastMembers (g : Cfg) (t : Nat) : List (Bytes × J) :=
  [(b!"mtree", .str (b!"sha256:" ++ g.sha g.text)), (b!"target", .str g.job), (b!"time", .num (dec t))]

theorem last_members (g : Cfg) {t n : Nat} (r : Bytes) (ht : g.time = dec t) (hs : PlainText (g.sha g.text)) (hj : PlainText g.job) :
    members (n + 4) (b!"\t\"mtree\": \"sha256:" ++ g.sha g.text ++ b!"\",\n\t\"target\": \"" ++ g.job ++ b!"\",\n\t\"time\": " ++ g.time ++ b!"\n    }" ++ r) =
      some (lastMembers g t, r) := by
  have h3 := members_last (n := n + 1) (w := b!"\n\t") (k := b!"time") (t := 32 :: (dec t ++ 10 :: (b!"    }" ++ r))) (r := 10 :: (b!"    }" ++ r)) (r' := r) (v := .num (dec t))
    (by decide) (plain_lit (by decide)) (by
      obtain ⟨c, cs, hc⟩ : ∃ c cs, dec t = c :: cs := List.exists_cons_of_ne_nil (dec_ne_nil t)
      have hv := value_dec n t (b!"    }" ++ r)
      rw [show skip (32 :: (dec t ++ 10 :: (b!"    }" ++ r))) = dec t ++ 10 :: (b!"    }" ++ r) from ?_]
      · exact hv
      · have hcd := dec_isDigit t c (by rw [hc]; simp)
        rw [hc]
        show skip (c :: _) = _
        rw [skip, if_neg]
        · rfl
        · intro h
          unfold isWs at h
          have := of_decide_eq_true h
          rcases this with rfl | rfl | rfl | rfl <;> exact absurd hcd (by decide)) rfl
  have h2 := members_more (n := n + 2) (w := b!"\n\t") (k := b!"target") (t := 32 :: 34 :: (g.job ++ 34 :: 44 :: (b!"\n\t" ++ 34 :: (b!"time" ++ 34 :: 58 :: 32 :: (dec t ++ 10 :: (b!"    }" ++ r))))))
    (by decide) (plain_lit (by decide)) (by
      show value (n + 2) (34 :: _) = _
      exact value_str hj) h3
  have h1 := members_more (n := n + 3) (w := b!"\t") (k := b!"mtree")
    (t := 32 :: 34 :: ((b!"sha256:" ++ g.sha g.text) ++ 34 :: 44 :: (b!"\n\t" ++ 34 :: (b!"target" ++ 34 :: 58 :: 32 :: 34 :: (g.job ++ 34 :: 44 :: (b!"\n\t" ++ 34 :: (b!"time" ++ 34 :: 58 :: 32 :: (dec t ++ 10 :: (b!"    }" ++ r)))))))))
    (by decide) (plain_lit (by decide)) (by
      show value (n + 3) (34 :: _) = _
      exact value_str (plain_append (plain_lit (by decide)) hs)) h2
  rw [ht]
  refine (congrArg (members _) ?_).trans h1
  simp only [List.append_assoc]
  rfl

theorem commaNl_length (g : Cfg) : ∀ l : List (Item × Bytes), l.length ≤ (commaNl (l.map (changedLine g))).length
  | [] => Nat.zero_le _
  | [p] => by
    simp only [List.map_cons, List.map_nil, commaNl, changedLine, List.length_append, List.length_cons, List.length_nil]
    omega
  | p :: q :: l => by
    have := commaNl_length g (q :: l)
    rw [List.map_cons, List.map_cons, commaNl_cons, ← List.map_cons, List.length_append, List.length_append]
    simp only [List.length_cons, List.length_nil] at this ⊢
    omega

theorem skip_skip : ∀ b : Bytes, skip (skip b) = skip b
  | [] => rfl
  | c :: b => by
    rw [skip]
    by_cases h : isWs c = true
    · rw [if_pos h, skip_skip b]
    · rw [if_neg h, skip, if_neg h]

theorem members_skip {n : Nat} {b : Bytes} : members n (skip b) = members n b := by
  cases n with
  | zero => rw [members, members]
  | succ n => rw [members, members, skip_skip]

/-- An object with members. -/
theorem value_obj {n : Nat} {cs r : Bytes} {l : List (Bytes × J)} (h : members n cs = some (l, r)) : value (n + 1) (123 :: cs) = some (.obj l, r) := by
  rw [← members_skip] at h
  rw [value]
  cases n with
  | zero => rw [members] at h; cases h
  | succ n =>
    cases hs : skip cs with
    | nil => rw [hs, members] at h; cases h
    | cons c b =>
      by_cases hc : c = 125
      · subst hc
        rw [hs, members] at h
        cases h
      · rw [hs] at h
        split
        · rename_i h'
          cases h'
          exact absurd rfl hc
        · rw [h]; rfl

/-- An array of a string and another value. -/
theorem parse_pair {b k t r : Bytes} {v : J} (hk : PlainText k) (hb : b = 91 :: (b!"\n    " ++ 34 :: (k ++ 34 :: 44 :: t)))
    (hv : value (b.length - 2) (skip t) = some (v, r)) (hr : skip r = 93 :: [10]) : parse b = some (.arr [.str k, v]) := by
  have hl : 8 ≤ b.length := by
    rw [hb]
    simp only [List.length_cons, List.length_append, List.length_nil]
    omega
  obtain ⟨n, hn⟩ : ∃ n, b.length = n + 3 := ⟨b.length - 3, by omega⟩
  rw [hn] at hv
  unfold parse
  rw [hn]
  have e2 : elements (n + 1 + 1) t = some ([v], [10]) := by
    rw [elements, show value (n + 1) (skip t) = some (v, r) from hv]
    simp only [hr]
  have e1 : elements (n + 1 + 1 + 1) (34 :: (k ++ 34 :: 44 :: t)) = some ([.str k, v], [10]) := by
    rw [elements, show skip (34 :: (k ++ 34 :: 44 :: t)) = 34 :: (k ++ 34 :: 44 :: t) from rfl, value_str hk]
    simp only [show skip (44 :: t) = 44 :: t from rfl, e2]
    rfl
  have e0 : value (n + 3 + 1) (skip b) = some (.arr [.str k, v], [10]) := by
    rw [hb]
    show value (n + 3 + 1) (91 :: _) = _
    rw [value, show skip (b!"\n    " ++ 34 :: (k ++ 34 :: 44 :: t)) = 34 :: (k ++ 34 :: 44 :: t) from rfl]
    exact congrArg (Option.map fun r : List J × Bytes => (J.arr r.1, r.2)) e1
  rw [e0]
  rfl

/-- C93: the metadata of a job is JSON, if what goes into it can stand between quotation marks: it names the format, exactly the files that have changed,
the output of mtree, the job and the time. -/
theorem C93_meta_partial (g : Cfg) (ch : List (Item × Bytes)) {t : Nat} (ht : g.time = dec t) (hs : ∀ c, PlainText (g.sha c)) (hj : PlainText g.job)
    (hf : ∀ p ∈ ch, PlainText p.1.digest) :
    parse (record g ch) = some (.arr [.str b!"STOW3.0", .obj ((if ch = [] then [] else [(b!"changed", .obj (ch.map (changedMember g)))]) ++ lastMembers g t)]) := by
  have hlen : 60 + ch.length ≤ (record g ch).length := by
    unfold record
    have := commaNl_length g ch
    cases ch with
    | nil =>
      rw [if_pos rfl]
      simp only [List.length_append, List.length_cons, List.length_nil]
      omega
    | cons p ch =>
      rw [if_neg (by simp)]
      simp only [List.length_append, List.length_cons, List.length_nil] at this ⊢
      omega
  obtain ⟨n, hn⟩ : ∃ n, (record g ch).length = n + 2 + 8 + ch.length := ⟨(record g ch).length - 10 - ch.length, by omega⟩
  have hlast := fun m => last_members g (n := m) b!"\n]\n" ht (hs _) hj
  by_cases hc : ch = []
  · subst hc
    rw [if_pos rfl, List.nil_append]
    refine parse_pair (t := 10 :: (b!"    {\n" ++ (b!"\t\"mtree\": \"sha256:" ++ g.sha g.text ++ b!"\",\n\t\"target\": \"" ++ g.job ++ b!"\",\n\t\"time\": " ++ g.time ++ b!"\n    }" ++ b!"\n]\n")))
      (r := b!"\n]\n") (plain_lit (by decide)) ?_ ?_ rfl
    · unfold record
      simp only [if_true, List.append_nil, List.append_assoc]
      rfl
    · rw [hn]
      show value (n + 7 + 1) (123 :: _) = _
      apply value_obj
      rw [← hlast (n + 3), ← members_skip]
      rfl
  · rw [if_neg hc]
    refine parse_pair (t := 10 :: (b!"    {\n" ++ (b!"\t\"changed\": {\n" ++ (commaNl (ch.map (changedLine g)) ++ b!"\n\t}" ++ (b!",\n" ++ (b!"\t\"mtree\": \"sha256:" ++ g.sha g.text ++ b!"\",\n\t\"target\": \"" ++ g.job ++ b!"\",\n\t\"time\": " ++ g.time ++ b!"\n    }" ++ b!"\n]\n"))))))
      (r := b!"\n]\n") (plain_lit (by decide)) ?_ ?_ rfl
    · unfold record
      rw [if_neg hc]
      simp only [List.append_assoc]
      rfl
    · rw [hn, show n + 2 + 8 + ch.length - 2 = (n + ch.length + 6) + 1 + 1 by omega]
      show value _ (123 :: _) = _
      apply value_obj
      have hm := changed_members g (b!",\n" ++ (b!"\t\"mtree\": \"sha256:" ++ g.sha g.text ++ b!"\",\n\t\"target\": \"" ++ g.job ++ b!"\",\n\t\"time\": " ++ g.time ++ b!"\n    }" ++ b!"\n]\n")) ch
        (n + ch.length + 5) hc (by omega) fun p hp => ⟨hf p hp, hs _⟩
      refine members_more (w := b!"\n\t") (k := b!"changed") (t := 32 :: 123 :: 10 :: _)
        (r := 10 :: (b!"\t\"mtree\": \"sha256:" ++ g.sha g.text ++ b!"\",\n\t\"target\": \"" ++ g.job ++ b!"\",\n\t\"time\": " ++ g.time ++ b!"\n    }" ++ b!"\n]\n")) (by decide) (plain_lit (by decide)) ?_ ?_
      · show value (n + ch.length + 5 + 1) (123 :: _) = _
        apply value_obj
        rw [← members_skip] at hm ⊢
        exact hm
      · refine Eq.trans ?_ (hlast (n + ch.length + 2))
        rw [← members_skip]
        rfl

/-- C93: so is the metadata that a job has stored when it is done. -/
theorem C93_stow_partial {g : Cfg} {files : List Item} (hg : CfgOk g files) {known : Bytes → Bool} {es : List StowData.Ev} {s : StowData.Sys}
    (ho : RunOk g (StowData.start g files [] known) es) (hr : StowData.run g (StowData.start g files [] known) es = some (.ok s)) (hd : s.gone = true)
    {t : Nat} (ht : g.time = dec t) (hs : ∀ c, PlainText (g.sha c)) (hj : PlainText g.job) (hf : ∀ x ∈ files, PlainText x.digest) :
    ∃ text, s.metas = [((g.sha g.text).take g.n, text)] ∧
      parse text = some (.arr [.str b!"STOW3.0", .obj ((if s.sent.filter (fun p => Changed g p) = [] then [] else
        [(b!"changed", .obj ((s.sent.filter (fun p => Changed g p)).map (changedMember g)))]) ++ lastMembers g t)]) := by
  obtain ⟨V, h1, h2, -, h4, -⟩ := C62_done_partial hg ho hr hd
  refine ⟨_, h4, C93_meta_partial g _ ht hs hj fun p hp => ?_⟩
  have : p.1 ∈ (V.filter (·.2)).map (·.1) := by rw [← h2]; exact List.mem_map.2 ⟨p, (List.mem_filter.1 hp).1, rfl⟩
  obtain ⟨v, hv, e⟩ := List.mem_map.1 this
  have hv' : p.1 ∈ asked files (g.sha g.text) := by
    rw [← e, ← h1]
    exact List.mem_map.2 ⟨v, (List.mem_filter.1 hv).1, rfl⟩
  unfold asked at hv'
  simp only [List.mem_append, List.mem_cons, List.not_mem_nil, or_false] at hv'
  rcases hv' with h | h
  · exact hf _ h
  · rw [h]; exact hs _

theorem elements_str {n : Nat} {w k t r : Bytes} {l : List J} (hw : ∀ c ∈ w, isWs c = true) (hk : PlainText k) (ht : elements (n + 1) t = some (l, r)) :
    elements (n + 1 + 1) (w ++ 34 :: (k ++ 34 :: 44 :: t)) = some (.str k :: l, r) := by
  rw [elements, skip_ws w hw, show skip (34 :: (k ++ 34 :: 44 :: t)) = 34 :: (k ++ 34 :: 44 :: t) from rfl, value_str hk]
  simp only [show skip (44 :: t) = 44 :: t from rfl, ht]
  rfl

/-- C93: what `info` prints with `-j` is JSON, and tells the size of the IDs. -/
theorem C93_info (n : Nat) : parse (infoOut true n) = some (.arr [.str b!"AardWARC", .str b!"info", .str b!"1", .obj [(b!"id_size", .num (dec n))]]) := by
  have hl : 40 ≤ (infoOut true n).length := by
    unfold infoOut
    rw [if_pos rfl]
    simp only [List.length_append, List.length_cons, List.length_nil]
    omega
  obtain ⟨m, hm⟩ : ∃ m, (infoOut true n).length = m + 10 := ⟨(infoOut true n).length - 10, by omega⟩
  have h0 : members (m + 4 + 1) (b!"\n    " ++ 34 :: (b!"id_size" ++ 34 :: 58 :: 32 :: (dec n ++ 10 :: b!"} ]\n"))) = some ([(b!"id_size", .num (dec n))], b!" ]\n") := by
    refine members_last (r := 10 :: b!"} ]\n") (by decide) (plain_lit (by decide)) ?_ rfl
    obtain ⟨c, cs, hc⟩ : ∃ c cs, dec n = c :: cs := List.exists_cons_of_ne_nil (dec_ne_nil n)
    rw [show skip (32 :: (dec n ++ 10 :: b!"} ]\n")) = dec n ++ 10 :: b!"} ]\n" from ?_]
    · exact value_dec _ _ _
    · have hcd := dec_isDigit n c (by rw [hc]; simp)
      rw [hc]
      show skip (c :: _) = _
      rw [skip, if_neg]
      · rfl
      · intro h
        unfold isWs at h
        have := of_decide_eq_true h
        rcases this with rfl | rfl | rfl | rfl <;> exact absurd hcd (by decide)
  have h1 : elements (m + 6 + 1) (32 :: 123 :: (b!"\n    " ++ 34 :: (b!"id_size" ++ 34 :: 58 :: 32 :: (dec n ++ 10 :: b!"} ]\n")))) =
      some ([.obj [(b!"id_size", .num (dec n))]], b!"\n") := by
    rw [elements, show value (m + 6) (skip (32 :: 123 :: (b!"\n    " ++ 34 :: (b!"id_size" ++ 34 :: 58 :: 32 :: (dec n ++ 10 :: b!"} ]\n"))))) = _ from value_obj h0]
    rfl
  have h4 := elements_str (w := []) (k := b!"AardWARC") (by decide) (plain_lit (by decide))
    (elements_str (w := b!" ") (k := b!"info") (by decide) (plain_lit (by decide)) (elements_str (w := b!" ") (k := b!"1") (by decide) (plain_lit (by decide)) h1))
  unfold parse
  rw [hm]
  have h5 : value (m + 10 + 1) (skip (infoOut true n)) = some (.arr [.str b!"AardWARC", .str b!"info", .str b!"1", .obj [(b!"id_size", .num (dec n))]], b!"\n") := by
    refine Eq.trans ?_ (congrArg (Option.map fun r : List J × Bytes => (J.arr r.1, r.2)) h4)
    unfold infoOut
    rw [if_pos rfl]
    simp only [List.append_assoc]
    show value (m + 10 + 1) (91 :: _) = _
    rw [value]
    rfl
  rw [h5]
  rfl

/-! ### Examples -/

open StowExample

/-- `C93_meta_partial` and `C93_info` with values. -/
example : parse (record { cfg with sha := fun _ => List.replicate 64 48 } [(fileC, b!"delta"), (fileA, b!"x")]) =
    some (.arr [.str b!"STOW3.0", .obj [(b!"changed", .obj [(b!"sha256:gamma00000000000000000000000000000000000000000000000000000000000", .str b!"id:0000000000000000"),
      (b!"sha256:alpha00000000000000000000000000000000000000000000000000000000000", .str b!"id:0000000000000000")]),
      (b!"mtree", .str (b!"sha256:" ++ List.replicate 64 48)), (b!"target", .str b!"home"), (b!"time", .num b!"20260101000000")]]) :=
  C93_meta_partial _ _ (t := 20260101000000) (by decide +kernel) (fun _ => plain_lit (a := List.replicate 64 48) (by decide)) (plain_lit (by decide))
    (fun p hp => by
      simp only [List.mem_cons, List.not_mem_nil, or_false] at hp
      rcases hp with rfl | rfl <;> exact plain_lit (by decide))

example : parse b!"[ \"AardWARC\", \"info\", \"1\", {\n    \"id_size\": 32\n} ]\n" =
    some (.arr [.str b!"AardWARC", .str b!"info", .str b!"1", .obj [(b!"id_size", .num b!"32")]]) := C93_info 32

/-- The specification tells JSON from other texts. -/
example : (parse b!"[1,]").isNone = true ∧ (parse b!"[01]").isNone = true ∧ (parse b!"{\"a\" 1}").isNone = true ∧ (parse b!"[\"\n\"]").isNone = true ∧ (parse b!"[1] 2").isNone = true ∧
    (parse b!" {\"a\\n\\u00e4\" : [-1.5e+3, true, {}, []]}").isSome = true := by decide +kernel

/-- C93 is false for some names of jobs: they are not quoted.  The configuration is fine, and the metadata is no JSON. -/
theorem C93_counterexample_job :
    StowMain.target (Config.configParse b!"stow.a\"b:\n directory /home\n").1 1024 (fun _ => true) b!"a\"b" = .ok (some ⟨b!"a\"b", { directory := some b!"/home" }⟩) ∧
    (parse (record { cfg with job := b!"a\"b" } [])).isNone = true := by decide +kernel

/-- Another file with the contents of the first. -/
def twin : Item := ⟨true, b!"z", sha b!"alpha"⟩

def twinEvs : List StowData.Ev :=
  [.mtree, .mtree, .mtree, .round 90 b!"one" true false, .recv, .recv, .recv, .recv, .run, .line, .eof, .round 90 b!"one" true true, .round 90 b!"one" true false, .run, .line, .line,
   .eof, .round 90 b!"two" true true, .round 90 b!"two" true false, .recv, .round 90 b!"two" true true, .recv, .stored, .round 90 b!"two" true false, .recv, .round 90 b!"two" true true,
   .recv, .stored, .round 90 b!"two" true false, .recv, .round 90 b!"two" true true, .recv, .stored, .round 90 b!"two" true false, .round 90 b!"two" true true,
   .round 90 b!"two" true false, .round 90 b!"two" true true, .round 90 b!"two" true false, .recv, .recv, .recv, .recv, .round 90 b!"two" true true, .recv, .metaStored,
   .round 90 b!"two" true false, .round 90 b!"two" true true]

set_option maxRecDepth 1000000 in
/-- C93 is false if two files had the same contents when mtree read them, and have changed since, in different ways: the same name is in the object twice, and
programs that keep one value for a name find only the last. -/
theorem C93_counterexample_twice :
    outcome (StowData.run cfg (StowData.start cfg [fileA, twin] [] (fun _ => false)) twinEvs) =
      .ok true [b!"one", b!"two", b!"tree"] [(b!"tree000000000000", record cfg [(fileA, b!"one"), (twin, b!"two")])] ∧
    (changedMember cfg (fileA, b!"one")).1 = (changedMember cfg (twin, b!"two")).1 := by decide +kernel

example : RunOk cfg (StowData.start cfg [fileA, twin] [] (fun _ => false)) twinEvs := runOk_spec (by decide +kernel)

end Verif.Props
