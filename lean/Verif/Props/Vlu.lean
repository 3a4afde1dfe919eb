/-
Properties C44 and C45: assembling lines from chunks.
-/
import Verif.Proofs.Vlu

namespace Verif.Props
open Verif Vlu Spec

/-- Feed one chunk after the other, until the callback stops it. -/
def feedAll {σ : Type} (f : σ → Bytes → σ × Int) : Vlu → σ → List Bytes → Option (σ × Int)
  | _, s, [] => some (s, 0)
  | l, s, d :: ds =>
    match feed f (d.length + 1) l s d with
    | none => none
    | some r => if r.2.2 ≠ 0 then some (r.1, r.2.2) else feedAll f r.2.1 r.1 ds

/-- C44, `VLU_Feed`: however a NUL-free text is cut into chunks, exactly its complete lines are
delivered, in order, until the callback stops; provided every line is shorter than the buffer. -/
theorem C44_feed_lines {σ : Type} (f : σ → Bytes → σ × Int) (s : σ) (bufsize : Nat) (hbs : 0 < bufsize)
    (chunks : List Bytes) (h0 : 0 ∉ chunks.flatten)
    (hlines : ∀ l ∈ linesOf chunks.flatten, l.length + 1 < bufsize) (hrest : (restOf chunks.flatten).length < bufsize) :
    feedAll f (vluNew bufsize) s chunks = some (deliverLines f (linesOf chunks.flatten) s) := by
  have key : ∀ (chunks : List Bytes) (l : Vlu) (s : σ), (∀ c ∈ l.buf, isEol c = false) → 0 ∉ l.buf ++ chunks.flatten →
      Fits l.bufl l.buf chunks.flatten →
      feedAll f l s chunks = some (deliverLines f (splitLines l.buf chunks.flatten).1 s) := by
    intro chunks
    induction chunks with
    | nil => intro l s _ _ _; simp [feedAll, splitLines, deliverLines]
    | cons d ds ih =>
      intro l s hb h0 hfit
      rw [feedAll]
      rw [List.flatten_cons] at h0 hfit ⊢
      have hfit1 : Fits l.bufl l.buf d := by
        unfold Fits at hfit ⊢
        rw [splitLines_append] at hfit
        refine ⟨fun x hx => hfit.1 x (by simp [hx]), ?_⟩
        by_cases hds : ds.flatten = []
        · rw [hds] at hfit
          simpa [splitLines] using hfit.2
        · exact Nat.le_of_lt (splitLines_rest_grows _ ds.flatten _
            ⟨fun x hx => hfit.1 x (by simp [hx]), hfit.2⟩ hds)
      have h0' : 0 ∉ l.buf ++ d := by
        intro hc; apply h0
        rw [← List.append_assoc]
        exact List.mem_append_left _ hc
      obtain ⟨r, r1, r2, r3⟩ := feed_spec f (d.length + 1) l s d hb h0' hfit1 (by omega)
      have e1 : r.1 = (deliverLines f (splitLines l.buf d).1 s).1 := by rw [← r2]
      have e2 : r.2.2 = (deliverLines f (splitLines l.buf d).1 s).2 := by rw [← r2]
      rw [r1]
      simp only
      rw [splitLines_append, deliverLines_append]
      by_cases hz : r.2.2 = 0
      · rw [if_neg (by simpa using hz), r3 hz, e1]
        rw [e2] at hz
        rw [if_neg (by simpa using hz)]
        exact ih { l with buf := (splitLines l.buf d).2 } _ (splitLines_rest_noeol _ _ hb)
          (by
            intro hc
            rcases List.mem_append.1 hc with h | h
            · rcases splitLines_rest_mem _ _ _ h with h | h
              · exact h0 (by simp [h])
              · exact h0 (by simp [h])
            · exact h0 (List.mem_append_right _ (List.mem_append_right _ h)))
          hfit.append
      · rw [if_pos hz]
        rw [e2] at hz
        rw [if_pos hz, r2]
  have hl : (vluNew bufsize).bufl = bufsize - 1 := by
    unfold vluNew
    rw [if_neg (by omega)]
  refine key chunks (vluNew bufsize) s (by simp [vluNew]) (by simpa [vluNew] using h0) ?_
  rw [hl]
  exact ⟨fun x hx => by have := hlines x hx; omega, by have := hrest; unfold restOf at this; simp only [vluNew]; omega⟩

/-- C44, chunk independence as a corollary: two cuts of the same text deliver the same. -/
theorem C44_feed_chunking {σ : Type} (f : σ → Bytes → σ × Int) (s : σ) (bufsize : Nat) (hbs : 0 < bufsize)
    (a b : List Bytes) (hab : a.flatten = b.flatten) (h0 : 0 ∉ a.flatten)
    (hlines : ∀ l ∈ linesOf a.flatten, l.length + 1 < bufsize) (hrest : (restOf a.flatten).length < bufsize) :
    feedAll f (vluNew bufsize) s a = feedAll f (vluNew bufsize) s b := by
  rw [C44_feed_lines f s bufsize hbs a h0 hlines hrest,
    C44_feed_lines f s bufsize hbs b (hab ▸ h0) (hab ▸ hlines) (hab ▸ hrest), hab]

/-- C44, `VLU_File`: whatever the sizes of the reads, the lines of the file are delivered, in order,
until the callback stops; if it does not, the end of the file is reported with -2. -/
theorem C44_file_lines {σ : Type} (f : σ → Bytes → σ × Int) (s : σ) (bufsize : Nat) (hbs : 0 < bufsize)
    (sz : Nat → Nat) (hsz : ∀ i, 0 < sz i) (file : Bytes) (h0 : 0 ∉ file)
    (hlines : ∀ l ∈ linesOf file, l.length + 1 < bufsize) (hrest : (restOf file).length < bufsize) :
    vluFile f sz (file.length + 1) 0 (vluNew bufsize) s file =
      some (if (deliverLines f (linesOf file) s).2 ≠ 0 then deliverLines f (linesOf file) s
        else ((deliverLines f (linesOf file) s).1, -2)) := by
  have hl : (vluNew bufsize).bufl = bufsize - 1 := by
    unfold vluNew
    rw [if_neg (by omega)]
  refine file_spec f sz hsz _ 0 (vluNew bufsize) s file (by simp [vluNew]) (by simpa [vluNew] using h0) ?_ (by omega)
  rw [hl]
  exact ⟨fun x hx => by have := hlines x hx; omega, by have := hrest; unfold restOf at this; simp only [vluNew]; omega⟩

/-- The chunks `"ab"`, `"\nc\r"`, `"\nd"` meet the hypotheses with a buffer of 4 bytes. -/
example :
    feedAll (fun (s : List Bytes) b => (s ++ [b], 0)) (vluNew 4) [] [b!"ab", b!"\nc\r", b!"\nd"] =
      some ([b!"ab", b!"c", []], 0) ∧
    linesOf [b!"ab", b!"\nc\r", b!"\nd"].flatten = [b!"ab", b!"c", []] ∧
    restOf [b!"ab", b!"\nc\r", b!"\nd"].flatten = b!"d" ∧
    vluFile (fun (s : List Bytes) b => (s ++ [b], 0)) (fun i => i + 1) 20 0 (vluNew 4) [] b!"ab\nc\r\nd" =
      some ([b!"ab", b!"c", []], -2) := by decide

/-- With a NUL in the text the lines do depend on the cut. -/
theorem C44_counterexample_nul :
    feedAll (fun (s : List Bytes) b => (s ++ [b], 0)) (vluNew 64) [] [b!"a" ++ [0] ++ b!"b\n"] = some ([], 0) ∧
    feedAll (fun (s : List Bytes) b => (s ++ [b], 0)) (vluNew 64) [] [b!"a" ++ [0], b!"b\n"] =
      some ([b!"ab"], 0) := by decide

/-- The buffer is never filled beyond its capacity (`bufl` bytes and the final NUL), whatever the
input and the callback. -/
theorem C44_in_bounds {σ : Type} (f : σ → Bytes → σ × Int) (fuel : Nat) (l : Vlu) (s : σ) (data : Bytes)
    (h : l.buf.length ≤ l.bufl) (r) (hr : feed f fuel l s data = some r) :
    r.2.1.buf.length ≤ r.2.1.bufl ∧ r.2.1.bufl = l.bufl := by
  induction fuel generalizing l s data with
  | zero => cases hr
  | succ fuel ih =>
    rw [feed] at hr
    split at hr
    · cases hr; exact ⟨h, rfl⟩
    · have hlen : (process f l s (l.buf ++ data.take (min data.length (l.bufl - l.buf.length)))).2.1.buf.length ≤ l.bufl := by
        have := lineUp_len f s [] [] (l.buf ++ data.take (min data.length (l.bufl - l.buf.length)))
        simp only [process]
        simp only [List.length_nil, List.length_append, List.length_take] at this
        omega
      simp only at hr
      split at hr
      · cases hr; exact ⟨hlen, rfl⟩
      · exact ih (process f l s (l.buf ++ data.take (min data.length (l.bufl - l.buf.length)))).2.1 _ _ hlen hr

/-- C45, exactly when feeding terminates: with a callback that never stops, feeding a NUL-free text
to a fresh line assembler returns if and only if every complete line is shorter than the buffer's
capacity and the unfinished rest is not longer than it.  Otherwise `VLU_Feed` loops forever. -/
theorem C45_feed_terminates_iff_partial {σ : Type} (f : σ → Bytes → σ × Int) (hf : ∀ s b, (f s b).2 = 0) (s : σ)
    (bufsize : Nat) (hbs : 0 < bufsize) (data : Bytes) (h0 : 0 ∉ data) :
    (∃ fuel r, feed f fuel (vluNew bufsize) s data = some r) ↔
      ((∀ l ∈ linesOf data, l.length + 1 < bufsize) ∧ (restOf data).length < bufsize) := by
  have hl : (vluNew bufsize).bufl = bufsize - 1 := by
    unfold vluNew
    rw [if_neg (by omega)]
  constructor
  · rintro ⟨fuel, r, h⟩
    have := feed_returns_fits f hf fuel (vluNew bufsize) s data (by simp [vluNew]) (by simpa [vluNew] using h0)
      (by simp [vluNew]) r h
    rw [hl] at this
    refine ⟨fun x hx => ?_, ?_⟩
    · have := this.1 x hx; omega
    · have := this.2; unfold restOf; simp only [vluNew] at this; omega
  · rintro ⟨h1, h2⟩
    obtain ⟨r, hr, -⟩ := feed_spec f (data.length + 1) (vluNew bufsize) s data (by simp [vluNew])
      (by simpa [vluNew] using h0)
      (by rw [hl]; exact ⟨fun x hx => by have := h1 x hx; omega, by unfold restOf at h2; simp only [vluNew]; omega⟩)
      (by omega)
    exact ⟨_, r, hr⟩

/-- C45 is false: a line of four characters hangs an assembler with four bytes of buffer. -/
theorem C45_counterexample_overlong :
    ¬ ∃ fuel r, feed (fun (s : List Bytes) b => (s ++ [b], 0)) fuel (vluNew 4) [] b!"abcd\n" = some r := by
  rw [C45_feed_terminates_iff_partial _ (fun _ _ => rfl) _ _ (by decide) _ (by decide)]
  decide

/-- Reading from a file never hangs, but an over-long line is reported as the end of the file. -/
theorem C45_counterexample_file :
    vluFile (fun (s : List Bytes) b => (s ++ [b], 0)) (fun _ => 100) 20 0 (vluNew 4) [] b!"abcd\nx\n" =
      some ([], -2) := by decide

end Verif.Props
