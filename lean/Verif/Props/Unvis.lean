/-
Property C84: stow opens the files that mtree has listed.
-/
import Verif.Model.Unvis
import Verif.Spec.Vis
import Verif.Props.MtreeExample

namespace Verif.Props
open Verif Mtree Unvis
open _root_.Verif.Rsilo (cstr)
open _root_.Verif.Spec.Mtree
open _root_.Verif.Spec.Vis

/-- The steps for several characters. -/
def unvisSteps : State → Bytes → Option (Bytes × State)
  | s, [] => some ([], s)
  | s, c :: l =>
    match Unvis.step s c with
    | none => none
    | some (o, s') => (unvisSteps s' l).map fun r => (o ++ r.1, r.2)

theorem unvis_append : ∀ (a b : Bytes) (s s' : State) (o : Bytes), unvisSteps s a = some (o, s') → unvis s (a ++ b) = (unvis s' b).map (o ++ ·)
  | [], b, s, s', o, h => by
    simp only [unvisSteps, Option.some.injEq, Prod.mk.injEq] at h
    obtain ⟨rfl, rfl⟩ := h
    cases h : unvis s b <;> simp [h]
  | c :: a, b, s, s', o, h => by
    rw [unvisSteps] at h
    rw [List.cons_append, unvis]
    cases hs : Unvis.step s c with
    | none => rw [hs] at h; cases h
    | some p =>
      obtain ⟨o1, s1⟩ := p
      rw [hs] at h
      simp only [Option.map_eq_some_iff, Prod.mk.injEq, Prod.exists] at h
      obtain ⟨o2, s2, h1, rfl, rfl⟩ := h
      simp only [unvis_append a b s1 s2 o2 h1, Option.map_map]
      congr 1
      funext x
      simp

theorem byte_all {P : UInt8 → Prop} (h : ∀ n : Fin 256, P (UInt8.ofNat n.val)) (c : UInt8) : P c := by
  have := h ⟨c.toNat, c.toNat_lt⟩
  simpa using this

/-- Each way to write a character is read as that character. -/
theorem steps_enc {c : UInt8} {e : Bytes} (h : Enc c e) : unvisSteps .ground e = some ([c], .ground) := by
  cases h with
  | plain h => exact byte_all (P := fun c => c ≠ 92 → unvisSteps .ground [c] = some ([c], .ground)) (by decide +kernel) c h
  | octal => exact byte_all (P := fun c => unvisSteps .ground [92, 48 + c / 64, 48 + c / 8 % 8, 48 + c % 8] = some ([c], .ground)) (by decide +kernel) c
  | @cstyle c e h =>
    have : ∀ p ∈ cstyle, unvisSteps .ground [92, p.2] = some ([p.1], .ground) := by decide +kernel
    exact this _ h
  | ctrl h => exact byte_all (P := fun c => c < 32 → unvisSteps .ground [92, 94, c + 64] = some ([c], .ground)) (by decide +kernel) c h
  | del => decide +kernel
  | high h k => exact byte_all (P := fun c => 161 ≤ c → c < 255 → unvisSteps .ground [92, 77, 45, c - 128] = some ([c], .ground)) (by decide +kernel) c h k
  | highCtrl h k => exact byte_all (P := fun c => 128 ≤ c → c < 160 → unvisSteps .ground [92, 77, 94, c - 64] = some ([c], .ground)) (by decide +kernel) c h k
  | highDel => decide +kernel
  | graph h k j =>
    exact byte_all (P := fun c => 33 ≤ c → c ≤ 126 → c ∉ b!"01234567nrbavtfsEMx^$" → unvisSteps .ground [92, c] = some ([c], .ground)) (by decide +kernel) c h k j

theorem unvis_name {n m : Bytes} (h : EncName n m) (r : Bytes) : unvis .ground (m ++ r) = (unvis .ground r).map (n ++ ·) := by
  induction h with
  | nil => cases h : unvis .ground r <;> simp [h]
  | @cons c e n t h1 _ ih =>
    rw [List.append_assoc, unvis_append e (t ++ r) _ _ _ (steps_enc h1), ih, Option.map_map]
    congr 1

theorem unvis_whole {n m : Bytes} (h : EncName n m) : unvis .ground m = some n := by
  have := unvis_name h []
  simpa [unvis, finish] using this

theorem enc_pos {c : UInt8} {e : Bytes} (h : Enc c e) : 1 ≤ e.length := by
  cases h <;> simp

theorem enc_longer {n m : Bytes} (h : EncName n m) : n.length ≤ m.length := by
  induction h with
  | nil => simp
  | cons h1 _ ih =>
    have := enc_pos h1
    simp only [List.length_cons, List.length_append]
    omega

theorem encName_append {a b c d : Bytes} (h : EncName a b) (k : EncName c d) : EncName (a ++ c) (b ++ d) := by
  induction h with
  | nil => exact k
  | cons h1 _ ih => rw [List.cons_append, List.append_assoc]; exact .cons h1 ih

theorem encName_slash : EncName b!"/" b!"/" := .cons (e := [47]) (.plain (by decide)) .nil

theorem encName_dot : EncName b!"." b!"." := .cons (e := [46]) (.plain (by decide)) .nil

theorem openPath_ok {d n D N : Bytes} (h1 : EncName d D) (h2 : EncName n N) (hd : d ≠ []) (hn : n ≠ []) (zd : (0 : UInt8) ∉ d) (zn : (0 : UInt8) ∉ n)
    (hl : D.length + N.length + 2 ≤ 131072) : openPath D N = .ok (d ++ b!"/" ++ n) := by
  have l1 := enc_longer h1
  have l2 := enc_longer h2
  have p1 := List.length_pos_iff.2 hd
  have p2 := List.length_pos_iff.2 hn
  have c1 : cstr d = d := cstr_of_nul zd
  have c2 : cstr (d ++ b!"/" ++ n) = d ++ b!"/" ++ n := cstr_of_nul (by simp [zd, zn])
  have u1 : unvisAssert D = .ok d := by
    unfold unvisAssert
    rw [unvis_whole h1]
    have : decide (0 < d.length ∧ d.length < 131072) = true := by simp only [decide_eq_true_eq]; omega
    simp only [this, Res.check_true, Res.ok_bind, Res.pure_eq]
  have u2 : unvisAssert N = .ok n := by
    unfold unvisAssert
    rw [unvis_whole h2]
    have : decide (0 < n.length ∧ n.length < 131072) = true := by simp only [decide_eq_true_eq]; omega
    simp only [this, Res.check_true, Res.ok_bind, Res.pure_eq]
  have u3 : decide (d.length + 2 ≤ 131072) = true := by simp only [decide_eq_true_eq]; omega
  have u4 : decide (d.length + 1 + n.length + 1 ≤ 131072) = true := by simp only [decide_eq_true_eq]; omega
  unfold openPath
  simp only [u1, u2, Res.ok_bind, c1, u3, u4, Res.access_true, c2, Res.pure_eq]

/-- The files of the printed tree are those of the tree, with the names encoded. -/
theorem printed_files {r x : Tree} (h : Printed r x) : ∀ {d D : Bytes}, EncName d D → d ≠ [] → (0 : UInt8) ∉ d →
    (filesIn d r).length = (filesIn D x).length ∧ ∀ p ∈ (filesIn d r).zip (filesIn D x), EncName p.1.dir p.2.dir ∧ EncName p.1.name p.2.name ∧ p.1.digest = p.2.digest ∧
      p.1.dir ≠ [] ∧ Real p.1.name ∧ (0 : UInt8) ∉ p.1.dir := by
  induction h with
  | nil => intro d D _ _ _; simp [filesIn]
  | file hn he _ ih =>
    intro d D hd h0 hz
    obtain ⟨i1, i2⟩ := ih hd h0 hz
    refine ⟨by simp [filesIn, i1], fun p hp => ?_⟩
    simp only [filesIn, List.zip_cons_cons, List.mem_cons] at hp
    rcases hp with rfl | hp
    · exact ⟨hd, he, rfl, h0, hn, hz⟩
    · exact i2 p hp
  | other _ ih => intro d D hd h0 hz; exact ih hd h0 hz
  | @dir n m r x s y hn he _ _ ih1 ih2 =>
    intro d D hd h0 hz
    have hd' : EncName (d ++ b!"/" ++ n) (D ++ b!"/" ++ m) := encName_append (encName_append hd encName_slash) he
    have hz' : (0 : UInt8) ∉ d ++ b!"/" ++ n := by
      have : (0 : UInt8) ∉ n := fun k => (hn.2 0 k).1 rfl
      simp [hz, this]
    obtain ⟨i1, i2⟩ := ih1 hd' (by simp) hz'
    obtain ⟨j1, j2⟩ := ih2 hd h0 hz
    refine ⟨by simp only [filesIn, List.length_append, i1, j1], fun p hp => ?_⟩
    simp only [filesIn] at hp
    rw [List.zip_append i1, List.mem_append] at hp
    exact hp.elim (i2 p) (j2 p)

/-- A line is at least as long as each of its words. -/
theorem wordsText_le : ∀ (l : List (Bytes × List Gap)), ∀ w ∈ l.map (·.1), w.length ≤ (wordsText l).length
  | [], w, h => by simp at h
  | (v, g) :: l, w, h => by
    simp only [List.map_cons, List.mem_cons] at h
    simp only [wordsText, List.length_append]
    rcases h with rfl | h
    · omega
    · have := wordsText_le l w h
      omega

theorem line_le {ws : List Bytes} {t : Bytes} (h : Line ws t) : ∀ w ∈ ws, w.length ≤ t.length := by
  obtain ⟨lead, l, _⟩ := h
  intro w hw
  have := wordsText_le l w hw
  simp only [List.length_append]
  omega

theorem text_le {max : Nat} {ls : List (List Bytes)} {ts : List Bytes} (h : Text max ls ts) : ∀ ws ∈ ls, ∀ w ∈ ws, w.length ≤ max := by
  induction h with
  | nil => simp
  | blank _ _ _ ih => exact ih
  | line h1 h2 _ ih =>
    intro ws hws w hw
    rcases List.mem_cons.1 hws with rfl | k
    · have := line_le h1 w hw
      omega
    · exact ih ws k w hw

theorem lines_names {t t' : Bool} {x : Tree} {ls : List (List Bytes)} (h : Lines t x ls t') : ∀ d, ∀ f ∈ filesIn d x, ∃ ws ∈ ls, f.name ∈ ws := by
  induction h with
  | nil => intro d f hf; simp [filesIn] at hf
  | setNone ws _ _ ih => intro d f hf; obtain ⟨v, k1, k2⟩ := ih d f hf; exact ⟨v, List.mem_cons_of_mem _ k1, k2⟩
  | setFile u v _ _ ih => intro d f hf; obtain ⟨v, k1, k2⟩ := ih d f hf; exact ⟨v, List.mem_cons_of_mem _ k1, k2⟩
  | setDir u v _ _ ih => intro d f hf; obtain ⟨v, k1, k2⟩ := ih d f hf; exact ⟨v, List.mem_cons_of_mem _ k1, k2⟩
  | file ws _ _ _ _ ih =>
    intro d f hf
    rcases List.mem_cons.1 hf with rfl | k
    · exact ⟨_, List.mem_cons_self, by simp⟩
    · obtain ⟨v, k1, k2⟩ := ih d f k; exact ⟨v, List.mem_cons_of_mem _ k1, k2⟩
  | other u v k _ _ _ _ ih => intro d f hf; obtain ⟨v, k1, k2⟩ := ih d f hf; exact ⟨v, List.mem_cons_of_mem _ k1, k2⟩
  | dir ws _ _ _ _ ih1 ih2 =>
    intro d f hf
    rcases List.mem_append.1 hf with k | k
    · obtain ⟨v, k1, k2⟩ := ih1 _ f k
      exact ⟨v, by simp [k1], k2⟩
    · obtain ⟨v, k1, k2⟩ := ih2 _ f k
      exact ⟨v, by simp [k1], k2⟩

theorem files_dir {x : Tree} : ∀ d, ∀ f ∈ filesIn d x, f.dir = d ∨ f.dir ∈ dirsIn d x := by
  induction x with
  | nil => intro d f hf; simp [filesIn] at hf
  | file n g rest ih =>
    intro d f hf
    rcases List.mem_cons.1 hf with rfl | k
    · exact .inl rfl
    · exact ih d f k
  | other n rest ih => exact ih
  | dir n sub rest ih1 ih2 =>
    intro d f hf
    simp only [dirsIn, List.mem_cons, List.mem_append]
    rcases List.mem_append.1 hf with k | k
    · rcases ih1 _ f k with e | e
      · exact .inr (.inl e)
      · exact .inr (.inr (.inl e))
    · rcases ih2 d f k with e | e
      · exact .inl e
      · exact .inr (.inr (.inr e))

theorem zip_filter_map {α β γ : Type} (p : α → Bool) (q : β → Bool) (f : α → γ) (g : β → γ) : ∀ (a : List α) (b : List β), a.length = b.length →
    (∀ x ∈ a.zip b, p x.1 = q x.2 ∧ f x.1 = g x.2) → (a.filter p).map f = (b.filter q).map g
  | [], [], _, _ => rfl
  | [], _ :: _, h, _ => by simp at h
  | _ :: _, [], h, _ => by simp at h
  | x :: a, y :: b, h, k => by
    have e := k (x, y) (by simp)
    have ih := zip_filter_map p q f g a b (by simpa using h) (fun z hz => k z (by simp [hz]))
    simp only at e
    rw [List.filter_cons, List.filter_cons, e.1]
    split
    · rw [List.map_cons, List.map_cons, e.2, ih]
    · exact ih

/-- C84: for a tree of files with any names, whatever way of writing names mtree uses and however its output is cut into reads: when the
client has read it all, the paths it will give to `openat(2)` are those of the files of the tree that are not empty, in order and
once each; no assertion fails and nothing is written outside of the buffer. -/
theorem C84_opens {r x : Tree} {text : Bytes} (hp : Printed r x) (h : Output 8191 x text) (hd : ∀ e ∈ dirsIn b!"." x, e.length < 4095) (ks : List Nat)
    (hk : text.length < ks.length) :
    ∃ s, reads ks text empty = .ok (s, [], true) ∧
      s.st.subjs.map (fun u => (openPath u.dir u.name, u.digest)) =
        ((filesIn b!"." r).filter (fun f => f.digest ≠ emptyDigest)).map (fun f => (.ok (f.dir ++ b!"/" ++ f.name), f.digest)) := by
  obtain ⟨s, rest, fin, h1, h2, h3⟩ := C63_list_partial h hd ks
  obtain ⟨rfl, -, h5⟩ := h3 (h2 hk)
  rw [h2 hk] at h1
  refine ⟨s, h1, ?_⟩
  obtain ⟨p1, p2⟩ := printed_files hp encName_dot (by decide) (by decide)
  obtain ⟨ls, ts, t, l1, -, l3, -⟩ := h
  rw [h5, List.map_map, full]
  refine (zip_filter_map _ _ _ _ _ _ p1 (fun z hz => ?_)).symm
  obtain ⟨a1, a2, a3, a4, a5, a6⟩ := p2 z hz
  have hm : z.2 ∈ filesIn b!"." x := (List.of_mem_zip hz).2
  refine ⟨by rw [a3], ?_⟩
  have hdir : z.2.dir.length < 4095 := by
    rcases files_dir _ _ hm with e | e
    · rw [e]; decide
    · exact hd _ e
  have hname : z.2.name.length ≤ 8191 := by
    obtain ⟨ws, k1, k2⟩ : ∃ ws ∈ ls, z.2.name ∈ ws := by
      have base : ∀ (d e : Bytes) (y : Tree), ∀ f ∈ filesIn d y, ∃ g ∈ filesIn e y, g.name = f.name := by
        intro d e y
        induction y generalizing d e with
        | nil => intro f hf; simp [filesIn] at hf
        | file n g rest ih =>
          intro f hf
          rcases List.mem_cons.1 hf with rfl | k
          · exact ⟨_, List.mem_cons_self, rfl⟩
          · obtain ⟨g, g1, g2⟩ := ih d e f k
            exact ⟨g, List.mem_cons_of_mem _ g1, g2⟩
        | other n rest ih => exact ih d e
        | dir n sub rest ih1 ih2 =>
          intro f hf
          rcases List.mem_append.1 hf with k | k
          · obtain ⟨g, g1, g2⟩ := ih1 _ (e ++ b!"/" ++ n) f k
            exact ⟨g, List.mem_append_left _ g1, g2⟩
          · obtain ⟨g, g1, g2⟩ := ih2 d e f k
            exact ⟨g, List.mem_append_right _ g1, g2⟩
      obtain ⟨g, g1, g2⟩ := base _ (b!"" ++ b!"/" ++ b!".") x _ hm
      obtain ⟨ws, w1, w2⟩ := lines_names l1 b!"" g (List.mem_append_left _ g1)
      exact ⟨ws, w1, g2 ▸ w2⟩
    exact text_le l3 ws k1 _ k2
  have := openPath_ok a1 a2 a4 a5.1 a6 (fun k => (a5.2 0 k).1 rfl) (by omega)
  simp only [Function.comp, subjOf, this, a3]

namespace UnvisExample
open MtreeExample

/-- A directory named "a b" with a file that is named by a newline, a Latin-1 letter, a backslash and a hash. -/
def real : Tree := .dir b!"a b" (.file [10, 246, 92, 35] dA .nil) (.file b!"c" dB .nil)

/-- The same as FreeBSD's mtree prints it. -/
def shown : Tree := .dir b!"a\\sb" (.file b!"\\n\\M-v\\\\\\#" dA .nil) (.file b!"c" dB .nil)

theorem printed : Printed real shown := by
  refine .dir ⟨by decide, by decide⟩ (.cons (e := b!"a") (.plain (by decide)) (.cons (e := b!"\\s") (.cstyle (by decide)) (.cons (e := b!"b") (.plain (by decide)) .nil)))
    (.file ⟨by decide, by decide⟩ ?_ .nil) (.file ⟨by decide, by decide⟩ (.cons (e := b!"c") (.plain (by decide)) .nil) .nil)
  exact .cons (e := b!"\\n") (.cstyle (by decide)) (.cons (e := b!"\\M-v") (.high (by decide) (by decide)) (.cons (e := b!"\\\\") (.graph (by decide) (by decide) (by decide))
    (.cons (e := b!"\\#") (.graph (by decide) (by decide) (by decide)) .nil)))

end UnvisExample

/-- A character that is no digit ends an octal number; it is read as if the number were not there. -/
theorem steps_octal2 {v : UInt8} : ∀ {e : Bytes} {o : Bytes} {s : State}, e ≠ [] → (∀ d ∈ e.head?, isOct d = false) → unvisSteps .ground e = some (o, s) →
    unvisSteps (.octal2 v) e = some (v :: o, s)
  | [], _, _, h, _, _ => absurd rfl h
  | d :: e, o, s, _, hd, h => by
    have := hd d rfl
    simp only [unvisSteps, Unvis.step] at h ⊢
    rw [this]
    simp only [push, Bool.false_eq_true, if_false]
    simp only [Option.map_eq_some_iff, Prod.mk.injEq, Prod.exists] at h ⊢
    obtain ⟨a, b, h1, h2, h3⟩ := h
    exact ⟨a, b, h1, by rw [List.cons_append, h2], h3⟩

/-- **C84** (short numbers).  An octal number of one digit, which mtree does not print, followed by any character that mtree writes in one of its ways
is read as that number and that character. -/
theorem C84_short {v c : UInt8} {e : Bytes} (hv : v < 8) (h : Enc c e) (hd : ∀ d ∈ e.head?, isOct d = false) :
    unvisSteps .ground (92 :: (48 + v) :: e) = some ([v, c], .ground) := by
  have he : e ≠ [] := by rintro rfl; have := steps_enc h; simp [unvisSteps] at this
  have h1 := steps_octal2 (v := v) he hd (steps_enc h)
  have h2 : Unvis.start (48 + v) = some ([], .octal2 v) :=
    byte_all (P := fun v => v < 8 → Unvis.start (48 + v) = some ([], .octal2 v)) (by decide +kernel) v hv
  simp only [unvisSteps, Unvis.step, Unvis.ground, if_pos, h2, h1]
  rfl

/-- The example: the paths opened, and what `strnunvis(3)` makes of other sequences. -/
example : (filesIn b!"." UnvisExample.shown).map (fun f => openPath f.dir f.name) = [.ok (b!"./a b/" ++ [10, 246, 92, 35]), .ok b!"./c"] ∧
    unvis .ground b!"\\0401\\x4a\\^?\\M^A\\7" = some [32, 49, 74, 127, 129, 7] ∧ unvis .ground b!"\\Mx" = none ∧
    unvis .ground b!"\\1\\n\\E\\x7\\s" = some [1, 10, 27, 7, 32] ∧ openPath b!"." b!"" = .fail := by decide +kernel

end Verif.Props
