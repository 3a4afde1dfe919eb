/-
Property C46: string buffers.
-/
import Verif.Model.Vsb

namespace Verif.Props
open Verif Vsb

/-- The operations on an unfinished string buffer. -/
inductive VOp where
  | putc (c : UInt8)
  | bcat (t : Bytes)
  | cat (t : Bytes)
  | printf (t : Bytes)
  | clear
  | indent (i : Int)

def runV : Vsb → List VOp → Res Vsb
  | s, [] => .ok s
  | s, .putc c :: os => do let s ← Vsb.putByte s c; runV s os
  | s, .bcat t :: os => do let s ← Vsb.bcat s t; runV s os
  | s, .cat t :: os => do let s ← Vsb.cat s t; runV s os
  | s, .printf t :: os => do let s ← Vsb.printf s t; runV s os
  | s, .clear :: os => do let s ← Vsb.clear s; runV s os
  | s, .indent i :: os => do let s ← Vsb.indentBy s i; runV s os

/-- What a text with automatic indentation should be: text, indentation, and whether the indentation
was ever made negative. -/
structure Text where
  text : Bytes
  indent : Nat
  bad : Bool

/-- Append, after the indentation if at the start of a line. -/
def Text.app (x : Text) (t : Bytes) : Text :=
  if x.bad then x
  else if x.text = [] ∨ x.text.getLast? = some 10 then
    { x with text := x.text ++ List.replicate x.indent 32 ++ t }
  else { x with text := x.text ++ t }

def Text.step (x : Text) : VOp → Text
  | .putc c => x.app [c]
  | .bcat t => if t = [] then x else x.app t
  | .cat t => t.foldl (fun x c => x.app [c]) x
  | .printf t => x.app t
  | .clear => { text := [], indent := 0, bad := false }
  | .indent i => if (x.indent : Int) + i < 0 then { x with bad := true }
      else { x with indent := ((x.indent : Int) + i).toNat }

theorem grow_ge (fuel n size : Nat) (hn : 0 < n) (hf : size ≤ n + fuel) : size ≤ grow fuel n size := by
  induction fuel generalizing n with
  | zero => simpa [grow] using hf
  | succ f ih =>
    rw [grow]
    split
    · exact ih _ (by omega) (by omega)
    · omega

theorem grow_pos (fuel n size : Nat) (hn : 0 < n) : 0 < grow fuel n size := by
  induction fuel generalizing n with
  | zero => simpa [grow] using hn
  | succ f ih =>
    rw [grow]
    split
    · exact ih _ (by omega)
    · omega

theorem extendSize_ge (n : Nat) : n ≤ extendSize n := by
  unfold extendSize
  split
  · exact grow_ge _ _ _ (by omega) (by omega)
  · omega

theorem extendSize_pos (n : Nat) : 0 < extendSize n := by
  unfold extendSize
  split
  · exact grow_pos _ _ _ (by omega)
  · omega

/-- The buffer is in order and stands for the text. -/
structure VInv (s : Vsb) (x : Text) : Prop where
  lt : s.data.length < s.size
  auto : s.auto = true
  fin : s.fin = false
  text : s.data = x.text
  indent : s.indent = x.indent
  err : s.err = x.bad

theorem indent_spec (s : Vsb) (hl : s.data.length < s.size) (ha : s.auto = true) (he : s.err = false) :
    ∃ s', doIndent s = .ok s' ∧ s'.data.length < s'.size ∧ s'.auto = true ∧ s'.fin = s.fin ∧ s'.err = false ∧
      s'.indent = s.indent ∧
      s'.data = if s.data = [] ∨ s.data.getLast? = some 10 then s.data ++ List.replicate s.indent 32 else s.data := by
  unfold doIndent
  split
  · rename_i h
    refine ⟨s, rfl, hl, ha, rfl, he, rfl, ?_⟩
    rcases h with h | h | h
    · rw [h]; simp
    · rw [he] at h; cases h
    · rw [if_neg]
      rintro (h1 | h1)
      · exact h.1 h1
      · exact h.2 h1
  · rename_i h
    have hstart : s.data = [] ∨ s.data.getLast? = some 10 := by
      by_cases hd : s.data = []
      · exact Or.inl hd
      · right
        false_or_by_contra
        rename_i hc
        exact h (Or.inr (Or.inr ⟨hd, hc⟩))
    rw [if_pos hstart]
    split
    · rename_i hf
      simp only [extend, ha, if_true]
      have hge := extendSize_ge (s.size + s.indent)
      simp only [write]
      rw [decide_eq_true (by simp only [List.length_replicate]; omega)]
      refine ⟨_, rfl, ?_, rfl, rfl, he, rfl, rfl⟩
      simp only [List.length_append, List.length_replicate]
      omega
    · rename_i hf
      unfold Vsb.free at hf
      simp only [write]
      rw [decide_eq_true (by simp only [List.length_replicate]; omega)]
      refine ⟨_, rfl, ?_, ha, rfl, he, rfl, rfl⟩
      simp only [List.length_append, List.length_replicate]
      omega

theorem checked_ok (s : Vsb) (hl : s.data.length < s.size) (hf : s.fin = false) : checked s = .ok () := by
  unfold checked
  rw [decide_eq_true hl, hf]
  rfl

theorem app_eq {s : Vsb} {x : Text} (h : VInv s x) (he : x.bad = false) (t : Bytes) (s' : Vsb)
    (hl : s'.data.length < s'.size) (ha : s'.auto = true) (hf : s'.fin = false) (hi : s'.indent = s.indent)
    (hr : s'.err = false)
    (hd : s'.data = (if s.data = [] ∨ s.data.getLast? = some 10 then s.data ++ List.replicate s.indent 32 else s.data) ++ t) :
    VInv s' (x.app t) := by
  unfold Text.app
  rw [he]
  simp only [Bool.false_eq_true, if_false]
  rw [h.text, h.indent] at hd
  refine ⟨hl, ha, hf, ?_, ?_, ?_⟩
  · rw [hd]
    split <;> simp
  · rw [hi, h.indent]; split <;> rfl
  · rw [hr]; split <;> simp [he]

theorem putByte_spec {s : Vsb} {x : Text} (h : VInv s x) (c : UInt8) :
    ∃ s', putByte s c = .ok s' ∧ VInv s' (x.app [c]) := by
  unfold putByte
  rw [checked_ok s h.lt h.fin]
  simp only [Res.ok_bind]
  by_cases he : s.err
  · rw [if_pos he]
    have hb : x.bad = true := by rw [← h.err]; exact he
    exact ⟨s, rfl, by unfold Text.app; rw [hb]; simpa using h⟩
  · rw [if_neg he]
    have he : s.err = false := by simpa using he
    obtain ⟨s1, e1, l1, a1, f1, r1, i1, d1⟩ := indent_spec s h.lt h.auto he
    rw [e1]
    simp only [Res.ok_bind, putTail]
    have hb : x.bad = false := by rw [← h.err]; exact he
    split
    · rename_i hz
      simp only [extend, a1, if_true, r1]
      have hge := extendSize_ge (s1.size + 1)
      simp only [write, Bool.false_eq_true, if_false]
      rw [decide_eq_true (by simp; omega)]
      refine ⟨_, rfl, app_eq h hb _ _ ?_ rfl (by rw [← h.fin]; exact f1) i1 rfl ?_⟩
      · simp; omega
      · simp only [d1]
    · rename_i hz
      unfold Vsb.free at hz
      simp only [write]
      rw [decide_eq_true (by simp; omega)]
      refine ⟨_, rfl, app_eq h hb _ _ ?_ a1 (by rw [← h.fin]; exact f1) i1 r1 ?_⟩
      · simp; omega
      · simp only [d1]

theorem bcat_spec {s : Vsb} {x : Text} (h : VInv s x) (t : Bytes) :
    ∃ s', Vsb.bcat s t = .ok s' ∧ VInv s' (x.step (.bcat t)) := by
  unfold Vsb.bcat
  rw [checked_ok s h.lt h.fin]
  simp only [Res.ok_bind, Text.step]
  by_cases he : s.err
  · rw [if_pos he]
    have hb : x.bad = true := by rw [← h.err]; exact he
    refine ⟨s, rfl, ?_⟩
    split
    · exact h
    · unfold Text.app; rw [hb]; simpa using h
  · rw [if_neg he]
    have he : s.err = false := by simpa using he
    have hb : x.bad = false := by rw [← h.err]; exact he
    by_cases ht : t = []
    · rw [if_pos ht, if_pos ht]
      exact ⟨s, rfl, h⟩
    rw [if_neg ht, if_neg ht]
    obtain ⟨s1, e1, l1, a1, f1, r1, i1, d1⟩ := indent_spec s h.lt h.auto he
    rw [e1]
    simp only [Res.ok_bind, bcatTail]
    split
    · rename_i hz
      simp only [extend, a1, if_true, r1]
      have hge := extendSize_ge (s1.size + (t.length - s1.free))
      unfold Vsb.free at hz hge
      simp only [write, Bool.false_eq_true, if_false]
      rw [decide_eq_true (by unfold Vsb.free; omega)]
      refine ⟨_, rfl, app_eq h hb _ _ ?_ rfl (by rw [← h.fin]; exact f1) i1 rfl ?_⟩
      · simp only [List.length_append]; unfold Vsb.free; omega
      · simp only [d1]
    · rename_i hz
      unfold Vsb.free at hz
      simp only [write]
      rw [decide_eq_true (by omega)]
      refine ⟨_, rfl, app_eq h hb _ _ ?_ a1 (by rw [← h.fin]; exact f1) i1 r1 ?_⟩
      · simp only [List.length_append]; omega
      · simp only [d1]

theorem printf_spec {s : Vsb} {x : Text} (h : VInv s x) (t : Bytes) :
    ∃ s', Vsb.printf s t = .ok s' ∧ VInv s' (x.app t) := by
  unfold Vsb.printf
  rw [checked_ok s h.lt h.fin]
  simp only [Res.ok_bind]
  by_cases he : s.err
  · rw [if_pos he]
    have hb : x.bad = true := by rw [← h.err]; exact he
    exact ⟨s, rfl, by unfold Text.app; rw [hb]; simpa using h⟩
  · rw [if_neg he]
    have he : s.err = false := by simpa using he
    have hb : x.bad = false := by rw [← h.err]; exact he
    obtain ⟨s1, e1, l1, a1, f1, r1, i1, d1⟩ := indent_spec s h.lt h.auto he
    rw [e1]
    simp only [Res.ok_bind]
    have hgrow : ∃ s2, printfGrow s1 t = .ok s2 ∧ t.length ≤ s2.free ∧ s2.data.length < s2.size ∧ s2.auto = true ∧
        s2.fin = s1.fin ∧ s2.err = false ∧ s2.indent = s1.indent ∧ s2.data = s1.data := by
      have hsn : ∀ s : Vsb, s.data.length < s.size → snprintf s t = .ok () := by
        intro s hl
        unfold snprintf Vsb.free
        rw [decide_eq_true (by omega)]
        rfl
      unfold printfGrow
      rw [hsn s1 l1]
      simp only [Res.ok_bind]
      split
      · rename_i hz
        simp only [extend, a1, if_true]
        have hge := extendSize_ge (s1.size + (t.length - s1.free))
        unfold Vsb.free at hz hge
        rw [hsn _ (by simp only [Vsb.free]; omega)]
        simp only [Res.ok_bind]
        rw [decide_eq_true (by unfold Vsb.free; simp only; omega)]
        exact ⟨_, rfl, by unfold Vsb.free; simp only; omega, by unfold Vsb.free; simp only; omega, rfl, rfl, r1, rfl, rfl⟩
      · exact ⟨s1, rfl, by omega, l1, a1, rfl, r1, rfl, rfl⟩
    obtain ⟨s2, e2, t2, l2, a2, f2, r2, i2, d2⟩ := hgrow
    rw [e2]
    simp only [Res.ok_bind, printfTail]
    rw [List.take_of_length_le t2]
    unfold Vsb.free at t2
    simp only [a2, not_true, and_false, if_false]
    rw [decide_eq_true (by rw [List.length_append]; omega)]
    refine ⟨_, rfl, app_eq h hb _ _ ?_ rfl (by rw [← h.fin, ← f1]; exact f2) (by rw [← i1]; exact i2) r2 ?_⟩
    · simp only [List.length_append]; omega
    · simp only [d2, d1]

theorem cat_spec {s : Vsb} {x : Text} (h : VInv s x) (t : Bytes) :
    ∃ s', Vsb.cat s t = .ok s' ∧ VInv s' (x.step (.cat t)) := by
  have hbad : ∀ (t : Bytes) (x : Text), x.bad = true → t.foldl (fun x c => x.app [c]) x = x := by
    intro t
    induction t with
    | nil => intro x _; rfl
    | cons c cs ih =>
      intro x hb
      have : x.app [c] = x := by unfold Text.app; rw [hb]; rfl
      rw [List.foldl_cons, this, ih x hb]
  have hloop : ∀ (t : Bytes) (s : Vsb) (x : Text), VInv s x →
      ∃ s', catLoop t s = .ok s' ∧ VInv s' (t.foldl (fun x c => x.app [c]) x) := by
    intro t
    induction t with
    | nil => intro s x h; exact ⟨s, rfl, h⟩
    | cons c cs ih =>
      intro s x h
      obtain ⟨s1, e1, h1⟩ := putByte_spec h c
      rw [catLoop, e1]
      simp only [Res.ok_bind, List.foldl_cons]
      split
      · rename_i he
        rw [hbad _ _ (by rw [← h1.err]; exact he)]
        exact ⟨s1, rfl, h1⟩
      · exact ih s1 _ h1
  unfold Vsb.cat
  rw [checked_ok s h.lt h.fin]
  simp only [Res.ok_bind, Text.step]
  split
  · rename_i he
    rw [hbad _ _ (by rw [← h.err]; exact he)]
    exact ⟨s, rfl, h⟩
  · exact hloop t s x h

theorem runV_spec (ops : List VOp) : ∀ (s : Vsb) (x : Text), VInv s x →
    ∃ s', runV s ops = .ok s' ∧ VInv s' (ops.foldl Text.step x) := by
  induction ops with
  | nil => intro s x h; exact ⟨s, rfl, h⟩
  | cons o os ih =>
    intro s x h
    have hstep : ∃ s1, (∀ rest, runV s (o :: rest) = runV s1 rest) ∧ VInv s1 (x.step o) := by
      cases o with
      | putc c =>
        obtain ⟨s1, e, h1⟩ := putByte_spec h c
        exact ⟨s1, fun rest => by rw [runV, e]; rfl, h1⟩
      | bcat t =>
        obtain ⟨s1, e, h1⟩ := bcat_spec h t
        exact ⟨s1, fun rest => by rw [runV, e]; rfl, h1⟩
      | cat t =>
        obtain ⟨s1, e, h1⟩ := cat_spec h t
        exact ⟨s1, fun rest => by rw [runV, e]; rfl, h1⟩
      | printf t =>
        obtain ⟨s1, e, h1⟩ := printf_spec h t
        exact ⟨s1, fun rest => by rw [runV, e]; rfl, h1⟩
      | clear =>
        refine ⟨{ s with fin := false, err := false, data := [], indent := 0 }, fun rest => ?_, ?_⟩
        · rw [runV, Vsb.clear, decide_eq_true h.lt]; rfl
        · exact ⟨by have := h.lt; simp only [List.length_nil]; omega, h.auto, rfl, rfl, rfl, rfl⟩
      | indent i =>
        by_cases hi : (s.indent : Int) + i < 0
        · refine ⟨{ s with err := true }, fun rest => ?_, ?_⟩
          · rw [runV, indentBy, decide_eq_true h.lt]; simp [hi]
          · simp only [Text.step]
            rw [← h.indent, if_pos hi]
            exact ⟨h.lt, h.auto, h.fin, h.text, rfl, rfl⟩
        · refine ⟨{ s with indent := ((s.indent : Int) + i).toNat }, fun rest => ?_, ?_⟩
          · rw [runV, indentBy, decide_eq_true h.lt]; simp [hi]
          · simp only [Text.step]
            rw [← h.indent, if_neg hi]
            exact ⟨h.lt, h.auto, h.fin, h.text, rfl, h.err⟩
    obtain ⟨s1, e1, h1⟩ := hstep
    rw [e1, List.foldl_cons]
    exact ih s1 _ h1

/-- C46: any sequence of operations on an automatically extended string buffer runs without tripping
an assertion and without writing outside the allocation, keeps the length below the allocated size,
and the finished buffer holds exactly the text that was appended, with the indentation.  Finishing
succeeds unless the indentation was made negative. -/
theorem C46_content (ops : List VOp) :
    let x := ops.foldl Text.step { text := [], indent := 0, bad := false }
    ∃ s s', runV vsbNewAuto ops = .ok s ∧ s.data.length < s.size ∧
      Vsb.finish s = .ok (s', if x.bad then -1 else 0) ∧ dataOf s' = .ok x.text := by
  intro x
  obtain ⟨s, e, h⟩ := runV_spec ops vsbNewAuto ⟨[], 0, false⟩
    ⟨extendSize_pos 0, rfl, rfl, rfl, rfl, rfl⟩
  refine ⟨s, { s with fin := true }, e, h.lt, ?_, ?_⟩
  · unfold Vsb.finish
    rw [checked_ok s h.lt h.fin, decide_eq_true h.lt, h.err]
    rfl
  · unfold dataOf
    rw [decide_eq_true h.lt]
    simp only [Res.check_true, Res.ok_bind, Res.pure_eq]
    rw [h.text]

/-- C46, the usual case: without indentation the content is the concatenation of what was appended. -/
theorem C46_concatenation (ts : List Bytes) :
    ∃ s s', runV vsbNewAuto (ts.map VOp.bcat) = .ok s ∧ Vsb.finish s = .ok (s', 0) ∧ dataOf s' = .ok ts.flatten := by
  have hx : ∀ (ts : List Bytes) (t : Bytes),
      (ts.map VOp.bcat).foldl Text.step { text := t, indent := 0, bad := false } =
        { text := t ++ ts.flatten, indent := 0, bad := false } := by
    intro ts
    induction ts with
    | nil => intro t; simp
    | cons a as ih =>
      intro t
      rw [List.map_cons, List.foldl_cons]
      have : Text.step { text := t, indent := 0, bad := false } (.bcat a) = { text := t ++ a, indent := 0, bad := false } := by
        simp only [Text.step, Text.app, Bool.false_eq_true, if_false, List.replicate_zero, List.append_nil, ite_self]
        split
        · rename_i h; rw [h]; simp
        · rfl
      rw [this, ih]
      simp
  have := C46_content (ts.map VOp.bcat)
  simp only [hx ts []] at this
  obtain ⟨s, s', h1, -, h2, h3⟩ := this
  exact ⟨s, s', h1, by simpa using h2, by simpa using h3⟩

example :
    (∃ s, runV vsbNewAuto [.cat b!"ab\n", .indent 2, .bcat b!"cd", .printf b!"=12\n", .putc 33] = .ok s ∧
      s.data = b!"ab\n  cd=12\n  !" ∧ s.size = 16) ∧
    (∃ s, runV vsbNewAuto [.cat b!"abc", .bcat (List.replicate 100 120)] = .ok s ∧ s.data.length = 103 ∧
      s.size = 128) := by
  refine ⟨⟨_, rfl, by decide, by decide⟩, ⟨_, rfl, by decide, by decide⟩⟩

/-- A fixed buffer is in order; if it has no error it stands for the text. -/
structure FInv (n : Nat) (s : Vsb) (x : Text) : Prop where
  lt : s.data.length < s.size
  size : s.size = n
  auto : s.auto = false
  fin : s.fin = false
  text : s.err = false → s.data = x.text ∧ s.indent = x.indent ∧ x.bad = false

theorem findent_spec {n : Nat} {s : Vsb} {x : Text} (h : FInv n s x) (he : s.err = false) :
    ∃ s', doIndent s = .ok s' ∧ s'.data.length < s'.size ∧ s'.size = n ∧ s'.auto = false ∧ s'.fin = false ∧
      (s'.err = false → s'.indent = x.indent ∧ ∀ t, s'.data ++ t = (x.app t).text) := by
  obtain ⟨ht, hi, hb⟩ := h.text he
  have hl := h.lt
  unfold doIndent
  split
  · rename_i hc
    refine ⟨s, rfl, hl, h.size, h.auto, h.fin, fun _ => ⟨hi, fun t => ?_⟩⟩
    unfold Text.app
    rw [hb]
    simp only [Bool.false_eq_true, if_false]
    rw [← ht, ← hi]
    rcases hc with hc | hc | hc
    · rw [hc]; simp
    · rw [he] at hc; cases hc
    · rw [if_neg (by exact fun h1 => h1.elim hc.1 hc.2)]
  · rename_i hc
    have hstart : s.data = [] ∨ s.data.getLast? = some 10 := by
      by_cases hd : s.data = []
      · exact Or.inl hd
      · right
        false_or_by_contra
        rename_i hc'
        exact hc (Or.inr (Or.inr ⟨hd, hc'⟩))
    split
    · simp only [extend, h.auto, Bool.false_eq_true, if_false]
      exact ⟨_, rfl, hl, h.size, rfl, h.fin, fun hh => by cases hh⟩
    · rename_i hz
      unfold Vsb.free at hz
      simp only [write]
      rw [decide_eq_true (by rw [List.length_replicate]; omega)]
      refine ⟨_, rfl, by simp only [List.length_append, List.length_replicate]; omega, h.size, h.auto, h.fin, ?_⟩
      intro _
      refine ⟨hi, fun t => ?_⟩
      unfold Text.app
      rw [hb]
      simp only [Bool.false_eq_true, if_false]
      rw [← ht, ← hi, if_pos hstart]

theorem app_indent (x : Text) (t : Bytes) : (x.app t).indent = x.indent ∧ (x.app t).bad = x.bad := by
  unfold Text.app
  split
  · exact ⟨rfl, rfl⟩
  · split <;> exact ⟨rfl, rfl⟩

theorem fput_spec {n : Nat} {s : Vsb} {x : Text} (h : FInv n s x) (c : UInt8) :
    ∃ s', putByte s c = .ok s' ∧ FInv n s' (x.app [c]) := by
  unfold putByte
  rw [checked_ok s h.lt h.fin]
  simp only [Res.ok_bind]
  split
  · rename_i he
    exact ⟨s, rfl, h.lt, h.size, h.auto, h.fin, fun hh => by rw [he] at hh; cases hh⟩
  · rename_i he
    have he : s.err = false := by simpa using he
    obtain ⟨s1, e1, l1, z1, a1, f1, t1⟩ := findent_spec h he
    have hb := (h.text he).2.2
    rw [e1]
    simp only [Res.ok_bind, putTail]
    split
    · simp only [extend, a1, Bool.false_eq_true, if_false]
      exact ⟨_, rfl, l1, z1, rfl, f1, fun hh => by cases hh⟩
    · rename_i hz
      unfold Vsb.free at hz
      simp only [write]
      rw [decide_eq_true (by simp; omega)]
      exact ⟨_, rfl, by simp; omega, z1, a1, f1, fun hh =>
        ⟨(t1 hh).2 _, by rw [(app_indent x _).1]; exact (t1 hh).1, by rw [(app_indent x _).2]; exact hb⟩⟩

theorem fbcat_spec {n : Nat} {s : Vsb} {x : Text} (h : FInv n s x) (t : Bytes) :
    ∃ s', Vsb.bcat s t = .ok s' ∧ FInv n s' (x.step (.bcat t)) := by
  unfold Vsb.bcat
  rw [checked_ok s h.lt h.fin]
  simp only [Res.ok_bind, Text.step]
  split
  · rename_i he
    exact ⟨s, rfl, h.lt, h.size, h.auto, h.fin, fun hh => by rw [he] at hh; cases hh⟩
  · rename_i he
    have he : s.err = false := by simpa using he
    split
    · exact ⟨s, rfl, h⟩
    · obtain ⟨s1, e1, l1, z1, a1, f1, t1⟩ := findent_spec h he
      have hb := (h.text he).2.2
      rw [e1]
      simp only [Res.ok_bind, bcatTail]
      split
      · simp only [extend, a1, Bool.false_eq_true, if_false]
        exact ⟨_, rfl, l1, z1, rfl, f1, fun hh => by cases hh⟩
      · rename_i hz
        unfold Vsb.free at hz
        simp only [write]
        rw [decide_eq_true (by omega)]
        exact ⟨_, rfl, by simp only [List.length_append]; omega, z1, a1, f1, fun hh =>
          ⟨(t1 hh).2 _, by rw [(app_indent x _).1]; exact (t1 hh).1, by rw [(app_indent x _).2]; exact hb⟩⟩

theorem fprintf_spec {n : Nat} {s : Vsb} {x : Text} (h : FInv n s x) (t : Bytes) :
    ∃ s', Vsb.printf s t = .ok s' ∧ FInv n s' (x.app t) := by
  unfold Vsb.printf
  rw [checked_ok s h.lt h.fin]
  simp only [Res.ok_bind]
  split
  · rename_i he
    exact ⟨s, rfl, h.lt, h.size, h.auto, h.fin, fun hh => by rw [he] at hh; cases hh⟩
  · rename_i he
    have he : s.err = false := by simpa using he
    obtain ⟨s1, e1, l1, z1, a1, f1, t1⟩ := findent_spec h he
    have hb := (h.text he).2.2
    rw [e1]
    simp only [Res.ok_bind]
    have e2 : printfGrow s1 t = .ok s1 := by
      unfold printfGrow snprintf Vsb.free
      rw [decide_eq_true (by omega)]
      simp only [Res.access_true, Res.ok_bind, extend, a1, Bool.false_eq_true, if_false, ite_self]
    rw [e2]
    simp only [Res.ok_bind, printfTail]
    have hlen : (s1.data ++ t.take s1.free).length < s1.size := by
      rw [List.length_append, List.length_take]
      unfold Vsb.free
      omega
    split
    · rw [decide_eq_true (by simpa only using hlen)]
      exact ⟨_, rfl, hlen, z1, a1, f1, fun hh => by cases hh⟩
    · rename_i hroom
      rw [decide_eq_true (by simpa only using hlen)]
      refine ⟨_, rfl, hlen, z1, a1, f1, fun hh => ?_⟩
      have htake : t.take s1.free = t := by
        apply List.take_of_length_le
        rw [a1] at hroom
        simp only [Bool.false_eq_true, not_false_eq_true, and_true, List.length_append, List.length_take,
          Decidable.not_not] at hroom
        unfold Vsb.free at hroom ⊢
        omega
      simp only [htake]
      exact ⟨(t1 hh).2 _, by rw [(app_indent x _).1]; exact (t1 hh).1, by rw [(app_indent x _).2]; exact hb⟩

theorem fcat_spec {n : Nat} {s : Vsb} {x : Text} (h : FInv n s x) (t : Bytes) :
    ∃ s', Vsb.cat s t = .ok s' ∧ FInv n s' (x.step (.cat t)) := by
  have herr : ∀ (s : Vsb) (x y : Text), FInv n s x → s.err = true → FInv n s y := by
    intro s x y h he
    exact ⟨h.lt, h.size, h.auto, h.fin, fun hh => by rw [he] at hh; cases hh⟩
  have hloop : ∀ (t : Bytes) (s : Vsb) (x : Text), FInv n s x →
      ∃ s', catLoop t s = .ok s' ∧ FInv n s' (t.foldl (fun x c => x.app [c]) x) := by
    intro t
    induction t with
    | nil => intro s x h; exact ⟨s, rfl, h⟩
    | cons c cs ih =>
      intro s x h
      obtain ⟨s1, e1, h1⟩ := fput_spec h c
      rw [catLoop, e1]
      simp only [Res.ok_bind, List.foldl_cons]
      split
      · rename_i he
        exact ⟨s1, rfl, herr _ _ _ h1 he⟩
      · exact ih s1 _ h1
  unfold Vsb.cat
  rw [checked_ok s h.lt h.fin]
  simp only [Res.ok_bind, Text.step]
  split
  · rename_i he
    exact ⟨s, rfl, herr _ _ _ h he⟩
  · exact hloop t s x h

theorem frunV_spec {n : Nat} (ops : List VOp) : ∀ (s : Vsb) (x : Text), FInv n s x →
    ∃ s', runV s ops = .ok s' ∧ FInv n s' (ops.foldl Text.step x) := by
  induction ops with
  | nil => intro s x h; exact ⟨s, rfl, h⟩
  | cons o os ih =>
    intro s x h
    have hstep : ∃ s1, (∀ rest, runV s (o :: rest) = runV s1 rest) ∧ FInv n s1 (x.step o) := by
      cases o with
      | putc c =>
        obtain ⟨s1, e, h1⟩ := fput_spec h c
        exact ⟨s1, fun rest => by rw [runV, e]; rfl, h1⟩
      | bcat t =>
        obtain ⟨s1, e, h1⟩ := fbcat_spec h t
        exact ⟨s1, fun rest => by rw [runV, e]; rfl, h1⟩
      | cat t =>
        obtain ⟨s1, e, h1⟩ := fcat_spec h t
        exact ⟨s1, fun rest => by rw [runV, e]; rfl, h1⟩
      | printf t =>
        obtain ⟨s1, e, h1⟩ := fprintf_spec h t
        exact ⟨s1, fun rest => by rw [runV, e]; rfl, h1⟩
      | clear =>
        refine ⟨{ s with fin := false, err := false, data := [], indent := 0 }, fun rest => ?_, ?_⟩
        · rw [runV, Vsb.clear, decide_eq_true h.lt]; rfl
        · exact ⟨by have := h.lt; simp only [List.length_nil]; omega, h.size, h.auto, rfl, fun _ => ⟨rfl, rfl, rfl⟩⟩
      | indent i =>
        by_cases hi : (s.indent : Int) + i < 0
        · refine ⟨{ s with err := true }, fun rest => ?_, ?_⟩
          · rw [runV, indentBy, decide_eq_true h.lt]; simp [hi]
          · exact ⟨h.lt, h.size, h.auto, h.fin, fun hh => by cases hh⟩
        · refine ⟨{ s with indent := ((s.indent : Int) + i).toNat }, fun rest => ?_, ?_⟩
          · rw [runV, indentBy, decide_eq_true h.lt]; simp [hi]
          · refine ⟨h.lt, h.size, h.auto, h.fin, fun hh => ?_⟩
            obtain ⟨h1, h2, h3⟩ := h.text hh
            simp only [Text.step]
            rw [← h2, if_neg hi]
            exact ⟨h1, rfl, h3⟩
    obtain ⟨s1, e1, h1⟩ := hstep
    rw [e1, List.foldl_cons]
    exact ih s1 _ h1

/-- C46 for a buffer of fixed size: any sequence of operations runs without tripping an assertion and
without writing outside of the buffer.  If finishing reports success, the buffer holds exactly the
text that was appended: truncation never goes unnoticed. -/
theorem C46_fixed (length : Nat) (hl : 1 < length) (ops : List VOp) :
    ∃ s0 s s' i, vsbNewFixed length = .ok s0 ∧ runV s0 ops = .ok s ∧ s.data.length < length ∧
      Vsb.finish s = .ok (s', i) ∧
      (i = 0 → dataOf s' = .ok (ops.foldl Text.step { text := [], indent := 0, bad := false }).text) := by
  obtain ⟨s, e, h⟩ := frunV_spec (n := length) ops
    { data := [], size := length, auto := false, err := false, indent := 0, fin := false } ⟨[], 0, false⟩
    ⟨by simp only [List.length_nil]; omega, rfl, rfl, rfl, fun _ => ⟨rfl, rfl, rfl⟩⟩
  refine ⟨_, s, { s with fin := true }, if s.err then -1 else 0, ?_, e, ?_, ?_, ?_⟩
  · unfold vsbNewFixed; rw [decide_eq_true hl]; rfl
  · rw [← h.size]; exact h.lt
  · unfold Vsb.finish
    rw [checked_ok s h.lt h.fin, decide_eq_true h.lt]
    rfl
  · intro hi
    have he : s.err = false := by
      cases hs : s.err with
      | false => rfl
      | true => rw [hs] at hi; simp at hi
    unfold dataOf
    rw [decide_eq_true h.lt]
    simp only [Res.check_true, Res.ok_bind, Res.pure_eq]
    rw [(h.text he).1]

/-- A text that fits, and one that does not. -/
example :
    (∃ s0 s s', vsbNewFixed 5 = .ok s0 ∧ runV s0 [.cat b!"ab", .putc 99] = .ok s ∧ Vsb.finish s = .ok (s', 0)) ∧
    (∃ s0 s s', vsbNewFixed 5 = .ok s0 ∧ runV s0 [.cat b!"ab", .printf b!"cde"] = .ok s ∧
      Vsb.finish s = .ok (s', -1)) := by
  refine ⟨⟨_, _, _, rfl, rfl, rfl⟩, ⟨_, _, _, rfl, rfl, rfl⟩⟩

end Verif.Props
