import Verif.Model.Vlu
import Verif.Spec.Lines

namespace Verif.Vlu
open Verif Spec

theorem isEol_iff (c : UInt8) : isEol c = true ↔ c = 10 ∨ c = 13 := by
  simp [isEol]

theorem splitLines_append (cur a b : Bytes) :
    splitLines cur (a ++ b) =
      ((splitLines cur a).1 ++ (splitLines (splitLines cur a).2 b).1, (splitLines (splitLines cur a).2 b).2) := by
  induction a generalizing cur with
  | nil => simp [splitLines]
  | cons c cs ih =>
    rw [List.cons_append, splitLines, splitLines]
    split
    · rw [ih]; simp
    · exact ih _

theorem splitLines_noeol (cur p : Bytes) (h : ∀ c ∈ p, isEol c = false) : splitLines cur p = ([], cur ++ p) := by
  induction p generalizing cur with
  | nil => simp [splitLines]
  | cons c cs ih =>
    have hc : ¬(c = 10 ∨ c = 13) := by
      rw [← isEol_iff, h c (by simp)]; simp
    rw [splitLines, if_neg hc, ih _ (fun x hx => h x (by simp [hx]))]
    simp

theorem splitLines_rest_noeol (cur p : Bytes) (h : ∀ c ∈ cur, isEol c = false) :
    ∀ c ∈ (splitLines cur p).2, isEol c = false := by
  induction p generalizing cur with
  | nil => simpa [splitLines] using h
  | cons c cs ih =>
    rw [splitLines]
    split
    · exact ih [] (by simp)
    · rename_i hc
      apply ih
      intro x hx
      rcases List.mem_append.1 hx with hx | hx
      · exact h x hx
      · simp only [List.mem_singleton] at hx
        subst hx
        rw [← isEol_iff] at hc
        simpa using hc

theorem splitLines_rest_mem (cur p : Bytes) : ∀ c ∈ (splitLines cur p).2, c ∈ cur ∨ c ∈ p := by
  induction p generalizing cur with
  | nil => simp [splitLines]
  | cons c cs ih =>
    rw [splitLines]
    intro x hx
    split at hx
    · rcases ih [] x hx with h | h
      · cases h
      · exact Or.inr (by simp [h])
    · rcases ih _ x hx with h | h
      · rcases List.mem_append.1 h with h | h
        · exact Or.inl h
        · exact Or.inr (by simp at h; simp [h])
      · exact Or.inr (by simp [h])

theorem deliverLines_append {σ : Type} (f : σ → Bytes → σ × Int) (a b : List Bytes) (s : σ) :
    deliverLines f (a ++ b) s =
      if (deliverLines f a s).2 ≠ 0 then deliverLines f a s else deliverLines f b (deliverLines f a s).1 := by
  induction a generalizing s with
  | nil => simp [deliverLines]
  | cons l ls ih =>
    rw [List.cons_append, deliverLines, deliverLines]
    by_cases h : (f s l).2 = 0
    · simp only [h, ne_eq, not_true, if_false]
      rw [ih]
    · simp [h]

theorem lineUp_spec {σ : Type} (f : σ → Bytes → σ × Int) (s : σ) (done cur p : Bytes) (h : 0 ∉ p) :
    (lineUp f s done cur p).1 = (deliverLines f (splitLines cur p).1 s).1 ∧
    (lineUp f s done cur p).2.2 = (deliverLines f (splitLines cur p).1 s).2 ∧
    ((lineUp f s done cur p).2.2 = 0 → (lineUp f s done cur p).2.1 = (splitLines cur p).2) := by
  induction p generalizing s done cur with
  | nil => simp [lineUp, splitLines, deliverLines]
  | cons c cs ih =>
    have hc : c ≠ 0 := fun e => h (by simp [e])
    have hcs : 0 ∉ cs := fun e => h (by simp [e])
    rw [lineUp, splitLines, if_neg hc]
    by_cases he : c = 10 ∨ c = 13
    · rw [if_pos ((isEol_iff c).2 he), if_pos he]
      simp only [deliverLines]
      by_cases hf : (f s cur).2 = 0
      · simp only [hf, ne_eq, not_true, if_false]
        exact ih _ _ _ hcs
      · simp [hf]
    · rw [if_neg (by rw [isEol_iff]; exact he), if_neg he]
      exact ih _ _ _ hcs

theorem process_spec {σ : Type} (f : σ → Bytes → σ × Int) (l : Vlu) (s : σ) (b d : Bytes)
    (hb : ∀ c ∈ b, isEol c = false) (h0 : 0 ∉ b ++ d) :
    (process f l s (b ++ d)).1 = (deliverLines f (splitLines b d).1 s).1 ∧
    (process f l s (b ++ d)).2.2 = (deliverLines f (splitLines b d).1 s).2 ∧
    ((process f l s (b ++ d)).2.2 = 0 →
      (process f l s (b ++ d)).2.1 = { l with buf := (splitLines b d).2 }) := by
  have h := lineUp_spec f s [] [] (b ++ d) h0
  have hs : splitLines [] (b ++ d) = splitLines b d := by
    rw [splitLines_append, splitLines_noeol [] b hb]
    simp
  rw [hs] at h
  refine ⟨h.1, h.2.1, fun hz => ?_⟩
  simp only [process]
  rw [h.2.2 hz]

/-- The lines of a text fit into a buffer of size `n`. -/
def Fits (n : Nat) (cur p : Bytes) : Prop :=
  (∀ l ∈ (splitLines cur p).1, l.length < n) ∧ (splitLines cur p).2.length ≤ n

theorem splitLines_rest_grows (cur p : Bytes) (n : Nat) (h : Fits n cur p) (hp : p ≠ []) : cur.length < n := by
  induction p generalizing cur with
  | nil => exact absurd rfl hp
  | cons c cs ih =>
    unfold Fits at h
    rw [splitLines] at h
    split at h
    · exact h.1 cur (by simp)
    · by_cases hcs : cs = []
      · subst hcs
        have := h.2
        simp [splitLines] at this
        omega
      · have := ih (cur ++ [c]) h hcs
        simp at this
        omega

theorem Fits.append {n : Nat} {cur a b : Bytes} (h : Fits n cur (a ++ b)) : Fits n (splitLines cur a).2 b := by
  unfold Fits at h
  rw [splitLines_append] at h
  exact ⟨fun l hl => h.1 l (by simp [hl]), h.2⟩

/-- The text before the last line end and the rest fit together in the text. -/
theorem splitLines_len (cur p : Bytes) :
    (∀ l ∈ (splitLines cur p).1, l.length < cur.length + p.length) ∧
    (splitLines cur p).2.length ≤ cur.length + p.length := by
  induction p generalizing cur with
  | nil => simp [splitLines]
  | cons c cs ih =>
    rw [splitLines]
    split
    · have := ih []
      refine ⟨?_, ?_⟩
      · intro l hl
        simp only [List.mem_cons] at hl
        rcases hl with rfl | hl
        · simp
        · have := this.1 l hl
          simp at this ⊢
          omega
      · have := this.2
        simp at this ⊢
        omega
    · have := ih (cur ++ [c])
      simp only [List.length_append, List.length_cons, List.length_nil] at this ⊢
      refine ⟨fun l hl => ?_, ?_⟩
      · have := this.1 l hl; omega
      · omega

theorem feed_spec {σ : Type} (f : σ → Bytes → σ × Int) (fuel : Nat) (l : Vlu) (s : σ) (data : Bytes)
    (hb : ∀ c ∈ l.buf, isEol c = false) (h0 : 0 ∉ l.buf ++ data) (hfit : Fits l.bufl l.buf data)
    (hfuel : data.length < fuel) :
    ∃ r, feed f fuel l s data = some r ∧
      (r.1, r.2.2) = deliverLines f (splitLines l.buf data).1 s ∧
      (r.2.2 = 0 → r.2.1 = { l with buf := (splitLines l.buf data).2 }) := by
  induction fuel generalizing l s data with
  | zero => omega
  | succ fuel ih =>
    rw [feed]
    by_cases hd : data = []
    · subst hd
      rw [if_pos rfl]
      exact ⟨_, rfl, by simp [splitLines, deliverLines], by simp [splitLines]⟩
    · rw [if_neg hd]
      have hroom := splitLines_rest_grows _ _ _ hfit hd
      have hdl : 0 < data.length := List.length_pos_iff.2 hd
      simp only
      generalize hu : min data.length (l.bufl - l.buf.length) = u
      have hu0 : 0 < u := by omega
      have hsplit : data = data.take u ++ data.drop u := (List.take_append_drop u data).symm
      have h0' : 0 ∉ l.buf ++ data.take u := by
        intro hc
        apply h0
        rcases List.mem_append.1 hc with h | h
        · simp [h]
        · simp [List.mem_of_mem_take h]
      obtain ⟨p1, p2, p3⟩ := process_spec f l s l.buf (data.take u) hb h0'
      have hlines : (splitLines l.buf data).1 =
          (splitLines l.buf (data.take u)).1 ++ (splitLines (splitLines l.buf (data.take u)).2 (data.drop u)).1 ∧
          (splitLines l.buf data).2 = (splitLines (splitLines l.buf (data.take u)).2 (data.drop u)).2 := by
        have := splitLines_append l.buf (data.take u) (data.drop u)
        rw [← hsplit] at this
        rw [this]
        exact ⟨rfl, rfl⟩
      by_cases hz : (process f l s (l.buf ++ data.take u)).2.2 = 0
      · rw [if_neg (by simpa using hz), p3 hz, p1]
        rw [p2] at hz
        obtain ⟨r, r1, r2, r3⟩ := ih { l with buf := (splitLines l.buf (data.take u)).2 }
          (deliverLines f (splitLines l.buf (data.take u)).1 s).1 (data.drop u)
          (splitLines_rest_noeol _ _ hb)
          (by
            intro hc
            rcases List.mem_append.1 hc with h | h
            · rcases splitLines_rest_mem _ _ _ h with h | h
              · exact h0 (by simp [h])
              · exact h0 (by simp [List.mem_of_mem_take h])
            · exact h0 (by simp [List.mem_of_mem_drop h]))
          (by
            rw [hsplit] at hfit
            exact hfit.append)
          (by rw [List.length_drop]; omega)
        refine ⟨r, r1, ?_, ?_⟩
        · rw [r2, hlines.1, deliverLines_append, if_neg (by simpa using hz)]
        · intro h
          rw [r3 h, hlines.2]
      · rw [if_pos hz]
        refine ⟨_, rfl, ?_, fun h => absurd h hz⟩
        rw [p2] at hz
        rw [hlines.1, deliverLines_append, if_pos hz, p1, p2]

theorem feed_full {σ : Type} (f : σ → Bytes → σ × Int) (fuel : Nat) (l : Vlu) (s : σ) (data : Bytes)
    (hb : ∀ c ∈ l.buf, isEol c = false) (h0 : 0 ∉ l.buf) (hfull : l.bufl ≤ l.buf.length) (hd : data ≠ []) :
    feed f fuel l s data = none := by
  induction fuel generalizing l s data with
  | zero => rfl
  | succ fuel ih =>
    rw [feed, if_neg hd]
    have hu : min data.length (l.bufl - l.buf.length) = 0 := by omega
    simp only [hu, List.take_zero, List.drop_zero, List.append_nil]
    obtain ⟨p1, p2, p3⟩ := process_spec f l s l.buf [] hb (by simpa using h0)
    simp only [List.append_nil, splitLines, deliverLines] at p1 p2 p3
    rw [p2, if_neg (by simp), p3 p2, p1]
    exact ih _ _ _ hb h0 hfull hd

theorem feed_returns_fits {σ : Type} (f : σ → Bytes → σ × Int) (hf : ∀ s b, (f s b).2 = 0) (fuel : Nat) (l : Vlu)
    (s : σ) (data : Bytes) (hb : ∀ c ∈ l.buf, isEol c = false) (h0 : 0 ∉ l.buf ++ data)
    (hcap : l.buf.length ≤ l.bufl) (r) (h : feed f fuel l s data = some r) : Fits l.bufl l.buf data := by
  induction fuel generalizing l s data with
  | zero => cases h
  | succ fuel ih =>
    by_cases hd : data = []
    · subst hd
      simpa [Fits, splitLines] using hcap
    · by_cases hroom : l.bufl ≤ l.buf.length
      · rw [feed_full f _ l s data hb (fun hc => h0 (by simp [hc])) hroom hd] at h
        cases h
      · rw [feed, if_neg hd] at h
        simp only at h
        generalize hu : min data.length (l.bufl - l.buf.length) = u at h
        have hsplit : data = data.take u ++ data.drop u := (List.take_append_drop u data).symm
        have h0' : 0 ∉ l.buf ++ data.take u := by
          intro hc
          apply h0
          rcases List.mem_append.1 hc with h | h
          · simp [h]
          · simp [List.mem_of_mem_take h]
        obtain ⟨p1, p2, p3⟩ := process_spec f l s l.buf (data.take u) hb h0'
        have hz : (process f l s (l.buf ++ data.take u)).2.2 = 0 := by
          rw [p2]
          generalize (splitLines l.buf (data.take u)).1 = ls
          clear p1 p2 p3 h
          induction ls generalizing s with
          | nil => rfl
          | cons x xs ih => rw [deliverLines, if_neg (by simp [hf])]; exact ih _
        rw [if_neg (by simpa using hz), p3 hz] at h
        have hlen := splitLines_len l.buf (data.take u)
        have htl : (data.take u).length = u := by rw [List.length_take]; omega
        rw [htl] at hlen
        have := ih { l with buf := (splitLines l.buf (data.take u)).2 } _ (data.drop u)
          (splitLines_rest_noeol _ _ hb)
          (by
            intro hc
            rcases List.mem_append.1 hc with h | h
            · rcases splitLines_rest_mem _ _ _ h with h | h
              · exact h0 (by simp [h])
              · exact h0 (by simp [List.mem_of_mem_take h])
            · exact h0 (by simp [List.mem_of_mem_drop h]))
          (by simp only; omega) h
        unfold Fits at this ⊢
        simp only at this
        rw [hsplit, splitLines_append]
        refine ⟨?_, this.2⟩
        intro x hx
        rcases List.mem_append.1 hx with hx | hx
        · have := hlen.1 x hx; omega
        · exact this.1 x hx

theorem file_spec {σ : Type} (f : σ → Bytes → σ × Int) (sz : Nat → Nat) (hsz : ∀ i, 0 < sz i) (fuel i : Nat) (l : Vlu)
    (s : σ) (file : Bytes) (hb : ∀ c ∈ l.buf, isEol c = false) (h0 : 0 ∉ l.buf ++ file)
    (hfit : Fits l.bufl l.buf file) (hfuel : file.length < fuel) :
    vluFile f sz fuel i l s file =
      some (if (deliverLines f (splitLines l.buf file).1 s).2 ≠ 0 then deliverLines f (splitLines l.buf file).1 s
        else ((deliverLines f (splitLines l.buf file).1 s).1, -2)) := by
  induction fuel generalizing i l s file with
  | zero => omega
  | succ fuel ih =>
    rw [vluFile]
    by_cases hd : file = []
    · subst hd
      simp [vluFd, splitLines, deliverLines]
    · have hroom := splitLines_rest_grows _ _ _ hfit hd
      have hdl : 0 < file.length := List.length_pos_iff.2 hd
      have hszi := hsz i
      obtain ⟨u, hu⟩ : ∃ u, u = min (min (sz i) file.length) (l.bufl - l.buf.length) := ⟨_, rfl⟩
      have hu0 : 0 < u := by omega
      have hfd : vluFd f (sz i) l s file = (process f l s (l.buf ++ file.take u), file.drop u) := by
        unfold vluFd
        simp only [← hu]
        rw [if_neg (by omega)]
      rw [hfd]
      simp only
      have hsplit : file = file.take u ++ file.drop u := (List.take_append_drop u file).symm
      have h0' : 0 ∉ l.buf ++ file.take u := by
        intro hc
        apply h0
        rcases List.mem_append.1 hc with h | h
        · simp [h]
        · simp [List.mem_of_mem_take h]
      obtain ⟨p1, p2, p3⟩ := process_spec f l s l.buf (file.take u) hb h0'
      have hlines : (splitLines l.buf file).1 =
          (splitLines l.buf (file.take u)).1 ++ (splitLines (splitLines l.buf (file.take u)).2 (file.drop u)).1 := by
        have := splitLines_append l.buf (file.take u) (file.drop u)
        rw [← hsplit] at this
        rw [this]
      by_cases hz : (process f l s (l.buf ++ file.take u)).2.2 = 0
      · rw [if_pos hz, p3 hz, p1]
        rw [p2] at hz
        rw [ih (i + 1) { l with buf := (splitLines l.buf (file.take u)).2 }
          (deliverLines f (splitLines l.buf (file.take u)).1 s).1 (file.drop u)
          (splitLines_rest_noeol _ _ hb)
          (by
            intro hc
            rcases List.mem_append.1 hc with h | h
            · rcases splitLines_rest_mem _ _ _ h with h | h
              · exact h0 (by simp [h])
              · exact h0 (by simp [List.mem_of_mem_take h])
            · exact h0 (by simp [List.mem_of_mem_drop h]))
          (by
            rw [hsplit] at hfit
            exact hfit.append)
          (by rw [List.length_drop]; omega)]
        have hd := deliverLines_append f (splitLines l.buf (file.take u)).1
          (splitLines (splitLines l.buf (file.take u)).2 (file.drop u)).1 s
        rw [if_neg (by simpa using hz)] at hd
        rw [hlines, hd]
      · rw [if_neg hz, p1, p2]
        rw [p2] at hz
        rw [hlines, deliverLines_append, if_pos hz, if_pos hz]

theorem lineUp_len {σ : Type} (f : σ → Bytes → σ × Int) (s : σ) (done cur p : Bytes) :
    (lineUp f s done cur p).2.1.length ≤ done.length + cur.length + p.length := by
  induction p generalizing s done cur with
  | nil => simp [lineUp]
  | cons c cs ih =>
    rw [lineUp]
    split
    · simp; omega
    · split
      · split
        · simp; omega
        · have := ih (f s cur).1 (done ++ cur ++ [0]) []
          simp at this ⊢; omega
      · have := ih s done (cur ++ [c])
        simp at this ⊢; omega

end Verif.Vlu
