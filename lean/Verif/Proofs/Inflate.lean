/-
The decoders of Verif/Spec/Inflate.lean depend only on the bits they consume, and the output of a token
sequence can be continued.
-/
import Verif.Spec.Inflate

namespace Verif.Inflate
open Verif

/-- The parser depends only on the bits it consumes, and on the alignment of what follows. -/
def Local {α : Type} (p : Parser α) : Prop :=
  ∀ bs a r, p bs = some (a, r) →
    ∃ c, bs = c ++ r ∧ ∀ r' : Bits, r'.length % 8 = r.length % 8 → p (c ++ r') = some (a, r')

/-- As `Local`, and it consumes something. -/
def Local1 {α : Type} (p : Parser α) : Prop :=
  ∀ bs a r, p bs = some (a, r) →
    ∃ c, c ≠ [] ∧ bs = c ++ r ∧ ∀ r' : Bits, r'.length % 8 = r.length % 8 → p (c ++ r') = some (a, r')

theorem Local1.local {α : Type} {p : Parser α} (h : Local1 p) : Local p := by
  intro bs a r hp
  obtain ⟨c, _, h1, h2⟩ := h bs a r hp
  exact ⟨c, h1, h2⟩

theorem local_pure {α : Type} (a : α) : Local (Parser.pure a) := by
  intro bs b r h
  unfold Parser.pure at h
  cases h
  exact ⟨[], rfl, fun r' _ => rfl⟩

theorem local_fail {α : Type} : Local (Parser.fail : Parser α) := by
  intro bs b r h
  cases h

theorem bind_some {α β : Type} {p : Parser α} {f : α → Parser β} {bs r : Bits} {b : β} :
    Parser.bind p f bs = some (b, r) ↔ ∃ a r1, p bs = some (a, r1) ∧ f a r1 = some (b, r) := by
  unfold Parser.bind
  cases h : p bs with
  | none => simp
  | some x =>
    obtain ⟨a, r1⟩ := x
    constructor
    · intro h'; exact ⟨a, r1, rfl, h'⟩
    · rintro ⟨a', r1', h1, h2⟩; cases h1; exact h2

theorem len_append_mod {c2 r r' : Bits} (h : r'.length % 8 = r.length % 8) :
    (c2 ++ r').length % 8 = (c2 ++ r).length % 8 := by
  simp only [List.length_append]; omega

theorem local_bind {α β : Type} {p : Parser α} {f : α → Parser β} (hp : Local p) (hf : ∀ a, Local (f a)) :
    Local (Parser.bind p f) := by
  intro bs b r h
  obtain ⟨a, r1, h1, h2⟩ := bind_some.1 h
  obtain ⟨c1, e1, g1⟩ := hp _ _ _ h1
  obtain ⟨c2, e2, g2⟩ := hf a _ _ _ h2
  subst e2
  subst e1
  refine ⟨c1 ++ c2, by rw [List.append_assoc], fun r' hr => ?_⟩
  rw [List.append_assoc]
  exact bind_some.2 ⟨a, _, g1 _ (len_append_mod hr), g2 _ hr⟩

theorem local1_bind {α β : Type} {p : Parser α} {f : α → Parser β} (hp : Local1 p) (hf : ∀ a, Local (f a)) :
    Local1 (Parser.bind p f) := by
  intro bs b r h
  obtain ⟨a, r1, h1, h2⟩ := bind_some.1 h
  obtain ⟨c1, n1, e1, g1⟩ := hp _ _ _ h1
  obtain ⟨c2, e2, g2⟩ := hf a _ _ _ h2
  subst e2
  subst e1
  refine ⟨c1 ++ c2, by simp [n1], by rw [List.append_assoc], fun r' hr => ?_⟩
  rw [List.append_assoc]
  exact bind_some.2 ⟨a, _, g1 _ (len_append_mod hr), g2 _ hr⟩

theorem local1_bit : Local1 bit := by
  intro bs b r h
  cases bs with
  | nil => cases h
  | cons x xs =>
    cases h
    exact ⟨[b], by simp, rfl, fun r' _ => rfl⟩

theorem local_bits (n : Nat) : Local (bits n) := by
  induction n with
  | zero => exact local_pure _
  | succ n ih =>
    exact local_bind local1_bit.local fun b => local_bind ih fun v => local_pure _

theorem local_require (c : Bool) : Local (require c) := by
  unfold require
  split
  · exact local_pure _
  · exact local_fail

theorem local_align : Local align := by
  intro bs a r h
  unfold align at h
  cases h
  refine ⟨bs.take (bs.length % 8), (List.take_append_drop _ _).symm, fun r' hr => ?_⟩
  have h1 : (bs.drop (bs.length % 8)).length % 8 = 0 := by rw [List.length_drop]; omega
  have h2 : (bs.take (bs.length % 8)).length = bs.length % 8 := by rw [List.length_take]; omega
  have h3 : (bs.take (bs.length % 8) ++ r').length % 8 = bs.length % 8 := by
    rw [List.length_append, h2]; omega
  unfold align
  rw [h3, List.drop_append_of_le_length (by rw [h2]; exact Nat.le_refl _)]
  rw [List.drop_eq_nil_of_le (by rw [h2]; exact Nat.le_refl _), List.nil_append]

theorem local_bytes (n : Nat) : Local (bytes n) := by
  induction n with
  | zero => exact local_pure _
  | succ n ih => exact local_bind (local_bits 8) fun v => local_bind ih fun l => local_pure _

theorem local_symbolAux (tbl : List (Nat × Nat × Nat)) (fuel len code : Nat) : Local (symbolAux tbl fuel len code) := by
  induction fuel generalizing len code with
  | zero => exact local_fail
  | succ fuel ih =>
    rw [symbolAux]
    refine local_bind local1_bit.local fun b => ?_
    split
    · exact local_pure _
    · exact ih _ _

theorem local1_symbol (tbl : List (Nat × Nat × Nat)) : Local1 (symbol tbl) := by
  unfold symbol
  rw [symbolAux]
  refine local1_bind local1_bit fun b => ?_
  split
  · exact local_pure _
  · exact local_symbolAux _ _ _ _

theorem local_extra (t : List (Nat × Nat)) (i : Nat) : Local (extra t i) := by
  unfold extra
  split
  · exact local_fail
  · exact local_bind (local_bits _) fun v => local_pure _

/-- As `Local` for a parser with fuel: as much fuel as bits consumed is enough. -/
def FLocal {α : Type} (p : Nat → Parser α) : Prop :=
  ∀ f bs a r, p f bs = some (a, r) →
    ∃ c, bs = c ++ r ∧ ∀ (r' : Bits) (f' : Nat), r'.length % 8 = r.length % 8 → c.length < f' → p f' (c ++ r') = some (a, r')

theorem FLocal.all {α : Type} {p : Nat → Parser α} (h : FLocal p) : Local (fun bs => p (bs.length + 1) bs) := by
  intro bs a r hp
  obtain ⟨c, h1, h2⟩ := h _ _ _ _ hp
  refine ⟨c, h1, fun r' hr => h2 r' _ hr ?_⟩
  rw [List.length_append]; omega

/-- One step of a parser with fuel. -/
theorem flocal_step {α β : Type} {q : Parser α} (hq : Local1 q) (k : α → (Parser β) → Parser β) {p : Nat → Parser β}
    (hp : ∀ f, p (f + 1) = Parser.bind q fun a => k a (p f)) (h0 : p 0 = Parser.fail)
    (hk : ∀ a f, (∀ bs b r, p f bs = some (b, r) → ∃ c, bs = c ++ r ∧
        ∀ (r' : Bits) (f' : Nat), r'.length % 8 = r.length % 8 → c.length < f' → p f' (c ++ r') = some (b, r')) →
      ∀ bs b r, k a (p f) bs = some (b, r) → ∃ c, bs = c ++ r ∧
        ∀ (r' : Bits) (f' : Nat), r'.length % 8 = r.length % 8 → c.length < f' → k a (p f') (c ++ r') = some (b, r')) :
    FLocal p := by
  intro f
  induction f with
  | zero => intro bs a r h; rw [h0] at h; cases h
  | succ f ih =>
    intro bs b r h
    rw [hp] at h
    obtain ⟨a, r1, h1, h2⟩ := bind_some.1 h
    obtain ⟨c1, n1, e1, g1⟩ := hq _ _ _ h1
    obtain ⟨c2, e2, g2⟩ := hk a f ih _ _ _ h2
    subst e2
    subst e1
    refine ⟨c1 ++ c2, by rw [List.append_assoc], fun r' f' hr hf => ?_⟩
    have hpos : 0 < c1.length := List.length_pos_iff.2 n1
    rw [List.length_append] at hf
    obtain ⟨f'', rfl⟩ : ∃ x, f' = x + 1 := ⟨f' - 1, by omega⟩
    rw [hp, List.append_assoc]
    exact bind_some.2 ⟨a, _, g1 _ (len_append_mod hr), g2 _ _ hr (by omega)⟩

/-- The continuation condition of `flocal_step`: a local parser, then the recursive call, then a pure
function. -/
theorem cont_local {β : Type} {q : Parser Nat} (hq : Local q) (p : Nat → Parser β) (g : Nat → β → β) (f : Nat)
    (ih : ∀ bs b r, p f bs = some (b, r) → ∃ c, bs = c ++ r ∧
        ∀ (r' : Bits) (f' : Nat), r'.length % 8 = r.length % 8 → c.length < f' → p f' (c ++ r') = some (b, r')) :
    ∀ bs b r, (Parser.bind q fun x => Parser.bind (p f) fun ts => Parser.pure (g x ts)) bs = some (b, r) →
      ∃ c, bs = c ++ r ∧ ∀ (r' : Bits) (f' : Nat), r'.length % 8 = r.length % 8 → c.length < f' →
        (Parser.bind q fun x => Parser.bind (p f') fun ts => Parser.pure (g x ts)) (c ++ r') = some (b, r') := by
  intro bs b r h
  obtain ⟨x, r1, h1, h2⟩ := bind_some.1 h
  obtain ⟨ts, r2, h3, h4⟩ := bind_some.1 h2
  cases h4
  obtain ⟨c1, e1, g1⟩ := hq _ _ _ h1
  obtain ⟨c2, e2, g2⟩ := ih _ _ _ h3
  subst e2
  subst e1
  refine ⟨c1 ++ c2, by rw [List.append_assoc], fun r' f' hr hf => ?_⟩
  rw [List.length_append] at hf
  rw [List.append_assoc]
  exact bind_some.2 ⟨x, _, g1 _ (len_append_mod hr), bind_some.2 ⟨ts, _, g2 _ _ hr (by omega), rfl⟩⟩

/-- The recursive call, then a pure function. -/
theorem cont_rec {β : Type} (p : Nat → Parser β) (g : β → β) (f : Nat)
    (ih : ∀ bs b r, p f bs = some (b, r) → ∃ c, bs = c ++ r ∧
        ∀ (r' : Bits) (f' : Nat), r'.length % 8 = r.length % 8 → c.length < f' → p f' (c ++ r') = some (b, r')) :
    ∀ bs b r, (Parser.bind (p f) fun ts => Parser.pure (g ts)) bs = some (b, r) →
      ∃ c, bs = c ++ r ∧ ∀ (r' : Bits) (f' : Nat), r'.length % 8 = r.length % 8 → c.length < f' →
        (Parser.bind (p f') fun ts => Parser.pure (g ts)) (c ++ r') = some (b, r') := by
  intro bs b r h
  obtain ⟨ts, r2, h3, h4⟩ := bind_some.1 h
  cases h4
  obtain ⟨c2, e2, g2⟩ := ih _ _ _ h3
  exact ⟨c2, e2, fun r' f' hr hf => bind_some.2 ⟨ts, _, g2 _ _ hr hf, rfl⟩⟩

/-- A parser without recursive call. -/
theorem cont_done {β : Type} {q : Parser β} (hq : Local q) :
    ∀ bs b r, q bs = some (b, r) →
      ∃ c, bs = c ++ r ∧ ∀ (r' : Bits) (f' : Nat), r'.length % 8 = r.length % 8 → c.length < f' →
        q (c ++ r') = some (b, r') := by
  intro bs b r h
  obtain ⟨c, e, g⟩ := hq _ _ _ h
  exact ⟨c, e, fun r' _ hr _ => g r' hr⟩

theorem flocal_symbols (lit dist : List (Nat × Nat × Nat)) : FLocal (symbols lit dist) := by
  refine flocal_step (local1_symbol lit) (fun s rec =>
    if s < 256 then
      Parser.bind rec fun ts => Parser.pure (.lit (UInt8.ofNat s) :: ts)
    else if s = 256 then Parser.pure []
    else
      Parser.bind (extra lenTable (s - 257)) fun len =>
      Parser.bind (symbol dist) fun d =>
      Parser.bind (extra distTable d) fun dst =>
      Parser.bind rec fun ts => Parser.pure (.copy len dst :: ts)) (fun f => by rw [symbols]) (by rw [symbols]) ?_
  intro s f ih bs b r h
  by_cases h1 : s < 256
  · simp only [if_pos h1] at h ⊢
    exact cont_rec _ _ f ih _ _ _ h
  · simp only [if_neg h1] at h ⊢
    by_cases h2 : s = 256
    · simp only [if_pos h2] at h ⊢
      exact cont_done (local_pure _) _ _ _ h
    · simp only [if_neg h2] at h ⊢
      obtain ⟨len, r1, e1, h⟩ := bind_some.1 h
      obtain ⟨d, r2, e2, h⟩ := bind_some.1 h
      obtain ⟨c3, e3, g3⟩ := cont_local (local_extra distTable d) (symbols lit dist) (fun dst ts => .copy len dst :: ts) f ih _ _ _ h
      obtain ⟨c1, e1', g1⟩ := local_extra _ _ _ _ _ e1
      obtain ⟨c2, e2', g2⟩ := (local1_symbol dist).local _ _ _ e2
      subst e3; subst e2'; subst e1'
      refine ⟨c1 ++ c2 ++ c3, by simp only [List.append_assoc], fun r' f' hr hf => ?_⟩
      simp only [List.length_append] at hf
      rw [List.append_assoc, List.append_assoc]
      exact bind_some.2 ⟨len, _, g1 _ (len_append_mod (len_append_mod hr)), bind_some.2 ⟨d, _, g2 _ (len_append_mod hr),
        g3 _ _ hr (by omega)⟩⟩

theorem local_symbolsAll (lit dist : List (Nat × Nat × Nat)) : Local (symbolsAll lit dist) :=
  (flocal_symbols lit dist).all

theorem local_clLengths (n : Nat) : Local (clLengths n) := by
  induction n with
  | zero => exact local_pure _
  | succ n ih => exact local_bind (local_bits 3) fun v => local_bind ih fun l => local_pure _

theorem local_codeLengths (cl : List (Nat × Nat × Nat)) (want fuel : Nat) (acc : List Nat) :
    Local (codeLengths cl want fuel acc) := by
  induction fuel generalizing acc with
  | zero => exact local_fail
  | succ fuel ih =>
    rw [codeLengths]
    split
    · exact local_pure _
    split
    · exact local_fail
    refine local_bind (local1_symbol cl).local fun s => ?_
    split
    · exact ih _
    split
    · split
      · exact local_fail
      · exact local_bind (local_bits 2) fun n => ih _
    split
    · exact local_bind (local_bits 3) fun n => ih _
    · exact local_bind (local_bits 7) fun n => ih _

theorem local_dynamicCodes : Local dynamicCodes := by
  unfold dynamicCodes
  refine local_bind (local_bits 5) fun hlit => ?_
  refine local_bind (local_bits 5) fun hdist => ?_
  refine local_bind (local_bits 4) fun hclen => ?_
  refine local_bind (local_require _) fun _ => ?_
  refine local_bind (local_clLengths _) fun cl => ?_
  refine local_bind (local_require _) fun _ => ?_
  refine local_bind (local_codeLengths _ _ _ _) fun ls => ?_
  exact local_bind (local_require _) fun _ => local_pure _

theorem local_stored : Local stored := by
  unfold stored
  refine local_bind local_align fun _ => ?_
  refine local_bind (local_bits 16) fun len => ?_
  refine local_bind (local_bits 16) fun nlen => ?_
  refine local_bind (local_require _) fun _ => ?_
  exact local_bind (local_bytes _) fun d => local_pure _

theorem local_blockBody (t : Nat) : Local (blockBody t) := by
  unfold blockBody
  split
  · exact local_stored
  split
  · exact local_symbolsAll _ _
  split
  · exact local_bind local_dynamicCodes fun c => local_symbolsAll _ _
  · exact local_fail

theorem local1_block : Local1 block := by
  unfold block
  exact local1_bind local1_bit fun fin => local_bind (local_bits 2) fun type =>
    local_bind (local_blockBody type) fun ts => local_pure _

theorem flocal_blocks : FLocal blocks := by
  refine flocal_step local1_block (fun b rec => if b.1 then Parser.pure b.2 else Parser.bind rec fun ts => Parser.pure (b.2 ++ ts))
    (fun f => rfl) rfl ?_
  intro b f ih bs x r h
  by_cases h1 : b.1 = true
  · simp only [if_pos h1] at h ⊢
    exact cont_done (local_pure _) _ _ _ h
  · simp only [if_neg h1] at h ⊢
    exact cont_rec _ _ f ih _ _ _ h

theorem local_openBlocks (n : Nat) : Local (openBlocks n) := by
  induction n with
  | zero => exact local_pure _
  | succ n ih =>
    exact local_bind local1_block.local fun b => local_bind (local_require _) fun _ => local_bind ih fun ts => local_pure _

theorem local_deflateToks : Local deflateToks := flocal_blocks.all

/-! ### Blocks in sequence -/

/-- Open blocks followed by a stream of blocks. -/
theorem blocks_open (n fuel : Nat) {bs r r2 : Bits} {t1 t2 : List Tok} (h1 : openBlocks n bs = some (t1, r))
    (h2 : blocks fuel r = some (t2, r2)) : blocks (n + fuel) bs = some (t1 ++ t2, r2) := by
  induction n generalizing bs t1 with
  | zero =>
    cases h1
    rw [Nat.zero_add]; exact h2
  | succ n ih =>
    obtain ⟨b, r1, e1, h1⟩ := bind_some.1 h1
    obtain ⟨u, r1', e2, h1⟩ := bind_some.1 h1
    obtain ⟨ts, r3, e3, h1⟩ := bind_some.1 h1
    cases h1
    have hb : b.1 = false ∧ r1 = r1' := by
      unfold require at e2
      split at e2
      · rename_i hh
        cases e2
        exact ⟨by simpa using hh, rfl⟩
      · cases e2
    obtain ⟨hb, rfl⟩ := hb
    have := ih e3
    rw [Nat.succ_add]
    refine bind_some.2 ⟨b, r1, e1, ?_⟩
    rw [hb]
    simp only [Bool.false_eq_true, if_false]
    refine bind_some.2 ⟨ts ++ t2, r2, this, ?_⟩
    rw [List.append_assoc]
    rfl

/-- Open blocks in sequence. -/
theorem openBlocks_append (m n : Nat) {bs r r2 : Bits} {t1 t2 : List Tok} (h1 : openBlocks m bs = some (t1, r))
    (h2 : openBlocks n r = some (t2, r2)) : openBlocks (m + n) bs = some (t1 ++ t2, r2) := by
  induction m generalizing bs t1 with
  | zero =>
    cases h1
    rw [Nat.zero_add]; exact h2
  | succ m ih =>
    obtain ⟨b, r1, e1, h1⟩ := bind_some.1 h1
    obtain ⟨u, r1', e2, h1⟩ := bind_some.1 h1
    obtain ⟨ts, r3, e3, h1⟩ := bind_some.1 h1
    cases h1
    rw [Nat.succ_add]
    refine bind_some.2 ⟨b, r1, e1, bind_some.2 ⟨u, r1', e2, bind_some.2 ⟨ts ++ t2, r2, ih e3, ?_⟩⟩⟩
    rw [List.append_assoc]
    rfl

/-- The result of a parser with fuel on all its input does not depend on the fuel given. -/
theorem deflateToks_of_blocks {f : Nat} {bs r : Bits} {t : List Tok} (h : blocks f bs = some (t, r)) :
    deflateToks bs = some (t, r) := by
  obtain ⟨c, e, g⟩ := flocal_blocks _ _ _ _ h
  subst e
  exact g r _ rfl (by rw [List.length_append]; omega)

/-! ### Output -/

theorem copyBack_history (len dist : Nat) (out out' pre : Bytes) (h : copyBack len dist out = some out') :
    copyBack len dist (out ++ pre) = some (out' ++ pre) := by
  induction len generalizing out with
  | zero => cases h; rfl
  | succ len ih =>
    rw [copyBack] at h ⊢
    split at h
    · cases h
    · rename_i hd
      rw [if_neg hd]
      cases hx : out[dist - 1]? with
      | none => rw [hx] at h; cases h
      | some c =>
        rw [hx] at h
        have hlt : dist - 1 < out.length := (List.getElem?_eq_some_iff.1 hx).1
        have : (out ++ pre)[dist - 1]? = some c := by rw [List.getElem?_append_left hlt, hx]
        rw [this]
        exact ih (c :: out) h

theorem expandR_history (ts : List Tok) (out out' pre : Bytes) (h : expandR ts out = some out') :
    expandR ts (out ++ pre) = some (out' ++ pre) := by
  induction ts generalizing out with
  | nil => cases h; rfl
  | cons t ts ih =>
    cases t with
    | lit b => rw [expandR] at h ⊢; exact ih (b :: out) h
    | copy len dist =>
      rw [expandR] at h ⊢
      cases hc : copyBack len dist out with
      | none => rw [hc] at h; cases h
      | some o =>
        rw [hc] at h
        rw [copyBack_history _ _ _ _ pre hc]
        exact ih o h

theorem expandR_append (t1 t2 : List Tok) (out : Bytes) :
    expandR (t1 ++ t2) out = (expandR t1 out).bind (expandR t2) := by
  induction t1 generalizing out with
  | nil => rfl
  | cons t ts ih =>
    cases t with
    | lit b => rw [List.cons_append, expandR, expandR, ih]
    | copy len dist =>
      rw [List.cons_append, expandR, expandR]
      cases copyBack len dist out with
      | none => rfl
      | some o => simp only; rw [ih]

/-- Token sequences that decode on their own decode to the concatenation. -/
theorem expand_append {t1 t2 : List Tok} {d1 d2 : Bytes} (h1 : expand t1 = some d1) (h2 : expand t2 = some d2) :
    expand (t1 ++ t2) = some (d1 ++ d2) := by
  unfold expand at *
  rw [Option.map_eq_some_iff] at h1 h2
  obtain ⟨o1, e1, rfl⟩ := h1
  obtain ⟨o2, e2, rfl⟩ := h2
  have := expandR_history t2 [] o2 o1 e2
  rw [List.nil_append] at this
  rw [expandR_append, e1]
  simp only [Option.bind_some]
  rw [this]
  simp

theorem expand_nil : expand [] = some [] := rfl

theorem expand_lits (d : Bytes) : expand (d.map .lit) = some d := by
  have : ∀ (d out : Bytes), expandR (d.map .lit) out = some (d.reverse ++ out) := by
    intro d
    induction d with
    | nil => intro out; rfl
    | cons b d ih => intro out; rw [List.map_cons, expandR, ih]; simp
  unfold expand
  rw [this]
  simp

/-! ### Bits and bytes -/

theorem byteBits_length (b : UInt8) : (byteBits b).length = 8 := by simp [byteBits]

theorem toBits_length (l : Bytes) : (toBits l).length = 8 * l.length := by
  induction l with
  | nil => rfl
  | cons b l ih =>
    have : toBits (b :: l) = byteBits b ++ toBits l := rfl
    rw [this, List.length_append, byteBits_length, ih, List.length_cons]; omega

theorem toBits_append (a b : Bytes) : toBits (a ++ b) = toBits a ++ toBits b := by
  unfold toBits; rw [List.flatMap_append]

end Verif.Inflate
