/-
C75: the encrypted copies of the silos (utilities/select_silos.py).
-/
import Verif.Model.Backup
import Verif.Proofs.Bytes

namespace Verif.Props

open Backup

/-! ## The key stream -/

theorem xorFrom_length (ks : Nat → UInt8) (p : Nat) (l : Bytes) :
    (xorFrom ks p l).length = l.length := by
  induction l generalizing p with
  | nil => rfl
  | cons c r ih => simp [xorFrom, ih]

theorem xorFrom_append (ks : Nat → UInt8) (p : Nat) (a b : Bytes) :
    xorFrom ks p (a ++ b) = xorFrom ks p a ++ xorFrom ks (p + a.length) b := by
  induction a generalizing p with
  | nil => rfl
  | cons c r ih =>
    have e : p + 1 + r.length = p + (r.length + 1) := by omega
    simp [xorFrom, ih, e]

theorem xorFrom_getElem? (ks : Nat → UInt8) (p i : Nat) (l : Bytes) :
    (xorFrom ks p l)[i]? = l[i]?.map (fun c => c ^^^ ks (p + i)) := by
  induction l generalizing p i with
  | nil => simp [xorFrom]
  | cons c r ih =>
    cases i with
    | zero => simp [xorFrom]
    | succ i =>
      have e : p + 1 + i = p + (i + 1) := by omega
      simp [xorFrom, ih, e]

theorem xorFrom_twice (ks : Nat → UInt8) (p : Nat) (l : Bytes) :
    xorFrom ks p (xorFrom ks p l) = l := by
  induction l generalizing p with
  | nil => rfl
  | cons c r ih => simp [xorFrom, ih, UInt8.xor_assoc]

theorem encLoop_eq (ks : Nat → UInt8) (n : Nat) (hn : 0 < n) (fuel : Nat) (e : Enc) (l : Bytes)
    (hf : l.length < fuel) :
    (encLoop ks n fuel e l).auth = e.auth ++ xorFrom ks e.pos l ∧
    (encLoop ks n fuel e l).integ = e.integ ++ xorFrom ks e.pos l ∧
    (encLoop ks n fuel e l).out = e.out ++ xorFrom ks e.pos l := by
  induction fuel generalizing e l with
  | zero => omega
  | succ fuel ih =>
    by_cases h : l.take n = []
    · have hl : l = [] := by
        cases l with
        | nil => rfl
        | cons c r =>
          cases n with
          | zero => omega
          | succ n => simp at h
      subst hl
      simp [encLoop, xorFrom]
    · have hpos : 0 < l.length := by
        cases l with
        | nil => simp at h
        | cons c r => simp
      rw [encLoop, if_neg h]
      have := ih { pos := e.pos + (l.take n).length,
                   auth := e.auth ++ xorFrom ks e.pos (l.take n),
                   integ := e.integ ++ xorFrom ks e.pos (l.take n),
                   out := e.out ++ xorFrom ks e.pos (l.take n) } (l.drop n)
        (by simp only [List.length_drop]; omega)
      obtain ⟨h1, h2, h3⟩ := this
      have key : xorFrom ks e.pos l =
          xorFrom ks e.pos (l.take n) ++ xorFrom ks (e.pos + (l.take n).length) (l.drop n) := by
        rw [← xorFrom_append, List.take_append_drop]
      rw [h1, h2, h3, key]
      simp only [List.append_assoc, and_self]

theorem encryptFile_ok {C : Crypto} {k : Secrets} {sfn content dfn : Bytes} {fs : List File}
    (h : encryptFile C k sfn content dfn = .ok fs) :
    sfn ≠ dfn ∧
    fs = [⟨dfn, xorFrom (keystream C k.pkey (ivOf C k.skey sfn)) 0 content⟩,
      ⟨dfn ++ b!".hmac",
        hexStr (C.hmac k.skey (xorFrom (keystream C k.pkey (ivOf C k.skey sfn)) 0 content)) ++ [10]⟩,
      ⟨dfn ++ b!".sha256", b!"SHA256 (" ++ basename dfn ++ b!") = " ++
        hexStr (C.sha256 (xorFrom (keystream C k.pkey (ivOf C k.skey sfn)) 0 content)) ++ [10]⟩] := by
  simp only [encryptFile, Res.check_bind_eq_ok, Res.pure_eq, Res.ok.injEq, decide_eq_true_eq] at h
  obtain ⟨h1, h2⟩ := h
  obtain ⟨e1, e2, e3⟩ := encLoop_eq (keystream C k.pkey (ivOf C k.skey sfn)) 65536 (by decide)
    (content.length + 1) {} content (by omega)
  rw [e1, e2, e3] at h2
  simp only [List.nil_append] at h2
  exact ⟨h1, h2.symm⟩

theorem encryptFile_total (C : Crypto) (k : Secrets) (sfn content dfn : Bytes) (h : sfn ≠ dfn) :
    ∃ fs, encryptFile C k sfn content dfn = .ok fs := by
  simp only [encryptFile, decide_eq_true h, Res.check_true, Res.ok_bind, Res.pure_eq]
  exact ⟨_, rfl⟩

/-! ## The name in the IV -/

theorem dropBin_append_bin (n : Bytes) : dropBin (n ++ b!".bin") = dropBin n := by
  fun_induction dropBin n with
  | case1 r ih => simpa [dropBin] using ih
  | case2 c r hne ih =>
    rw [List.cons_append, dropBin, ih]
    intro r' h1 h2
    subst h1
    match r, h2 with
    | [], h2 => simp at h2
    | [a], h2 => simp at h2
    | [a, b], h2 => simp at h2
    | a :: b :: d :: r'', h2 =>
      simp only [List.cons_append, List.cons.injEq] at h2
      obtain ⟨e1, e2, e3, e4⟩ := h2
      subst e1 e2 e3
      exact hne r'' rfl rfl
  | case3 => rfl

theorem dropBin_mem {n : Bytes} {c : UInt8} (h : c ∈ dropBin n) : c ∈ n := by
  fun_induction dropBin n with
  | case1 r ih => simp [ih h]
  | case2 c' r hne ih =>
    rcases List.mem_cons.mp h with h | h
    · simp [h]
    · simp [ih h]
  | case3 => exact h

/-- A slash splits the replacement in two. -/
theorem dropBin_slash (a b : Bytes) : dropBin (a ++ 47 :: b) = dropBin a ++ 47 :: dropBin b := by
  fun_induction dropBin a with
  | case1 r ih => simpa [dropBin] using ih
  | case2 c r hne ih =>
    rw [List.cons_append, dropBin, ih]
    · rfl
    · intro r' h1 h2
      subst h1
      match r, h2 with
      | [], h2 => simp at h2
      | [a], h2 => simp at h2
      | [a, b], h2 => simp at h2
      | a :: b :: d :: r'', h2 =>
        simp only [List.cons_append, List.cons.injEq] at h2
        obtain ⟨e1, e2, e3, e4⟩ := h2
        subst e1 e2 e3
        exact hne r'' rfl rfl
  | case3 => 
    rw [List.nil_append, dropBin]
    · rfl
    · intro r' h1 h2
      exact absurd h1 (by decide)

theorem takeWhile_append_stop (p : UInt8 → Bool) (a b : Bytes) (c : UInt8)
    (ha : ∀ x ∈ a, p x = true) (hc : p c = false) : (a ++ c :: b).takeWhile p = a := by
  induction a with
  | nil => simp [hc]
  | cons x r ih =>
    simp only [List.cons_append, List.takeWhile_cons, ha x (by simp), if_true, List.cons.injEq,
      true_and]
    exact ih (fun y hy => ha y (by simp [hy]))

theorem basename_join (a b : Bytes) (hb : (47 : UInt8) ∉ b) : basename (a ++ 47 :: b) = b := by
  have e : (a ++ 47 :: b).reverse = b.reverse ++ 47 :: a.reverse := by simp
  rw [basename, e, takeWhile_append_stop _ _ _ _ _ (by decide), List.reverse_reverse]
  intro x hx
  have : x ≠ 47 := fun e => hb (e ▸ List.mem_reverse.mp hx)
  simpa using this

theorem ivOf_join (C : Crypto) (skey d n : Bytes) (hn : (47 : UInt8) ∉ n) :
    ivOf C skey (join d n) = (C.hmac skey (dropBin n)).take 16 := by
  rw [ivOf, join, dropBin_slash, basename_join _ _ (fun h => hn (dropBin_mem h))]

theorem ivOf_bin (C : Crypto) (skey d d' n : Bytes) (hn : (47 : UInt8) ∉ n) :
    ivOf C skey (join d' (n ++ b!".bin")) = ivOf C skey (join d n) := by
  rw [ivOf_join _ _ _ _ hn, ivOf_join, dropBin_append_bin]
  intro h
  rcases List.mem_append.mp h with h | h
  · exact hn h
  · exact absurd h (by decide)

/-! ## C75 -/

/-- C75.  An encrypted copy is taken back by the same operation, whatever the directories are
    called: from `d/n` to `d'/n.bin` and from a copy of that under `d''` to any other file the
    contents come back. -/
theorem C75_roundtrip (C : Crypto) (k : Secrets) (d d' d'' n content g : Bytes) (fs fs' : List File)
    (copy : Bytes) (hn : (47 : UInt8) ∉ n)
    (h : encryptFile C k (join d n) content (join d' (n ++ b!".bin")) = .ok fs)
    (hc : ⟨join d' (n ++ b!".bin"), copy⟩ ∈ fs)
    (h' : encryptFile C k (join d'' (n ++ b!".bin")) copy g = .ok fs') :
    ⟨g, content⟩ ∈ fs' := by
  obtain ⟨_, e⟩ := encryptFile_ok h
  obtain ⟨_, e'⟩ := encryptFile_ok h'
  subst e e'
  have hcopy : copy = xorFrom (keystream C k.pkey (ivOf C k.skey (join d n))) 0 content := by
    simp only [List.mem_cons, File.mk.injEq, List.not_mem_nil, or_false, true_and] at hc
    rcases hc with hc | ⟨hc, _⟩ | ⟨hc, _⟩
    · exact hc
    · exact absurd (congrArg List.length hc) (by simp)
    · exact absurd (congrArg List.length hc) (by simp)
  subst hcopy
  rw [ivOf_bin C k.skey d d'' n hn, xorFrom_twice]
  simp

/-- C75.  The `.hmac` and the `.sha256` are those of the copy, which is as long as the silo. -/
theorem C75_digests (C : Crypto) (k : Secrets) (sfn content dfn : Bytes) (fs : List File)
    (h : encryptFile C k sfn content dfn = .ok fs) :
    ∃ copy, copy.length = content.length ∧
      fs = [⟨dfn, copy⟩, ⟨dfn ++ b!".hmac", hexStr (C.hmac k.skey copy) ++ [10]⟩,
        ⟨dfn ++ b!".sha256",
          b!"SHA256 (" ++ basename dfn ++ b!") = " ++ hexStr (C.sha256 copy) ++ [10]⟩] := by
  obtain ⟨_, e⟩ := encryptFile_ok h
  exact ⟨_, xorFrom_length _ _ _, e⟩

/-- C75.  The copy of a silo that has grown begins with the copy made before: a site that has
    the old copy needs only the end of the new one. -/
theorem C75_grows (C : Crypto) (k : Secrets) (sfn a b dfn copy copy' : Bytes) (fs fs' : List File)
    (h : encryptFile C k sfn a dfn = .ok fs) (h' : encryptFile C k sfn (a ++ b) dfn = .ok fs')
    (hc : fs.head? = some ⟨dfn, copy⟩) (hc' : fs'.head? = some ⟨dfn, copy'⟩) : copy <+: copy' := by
  obtain ⟨_, e⟩ := encryptFile_ok h
  obtain ⟨_, e'⟩ := encryptFile_ok h'
  subst e e'
  simp only [List.head?_cons, Option.some.injEq, File.mk.injEq, true_and] at hc hc'
  subst hc hc'
  rw [xorFrom_append]
  exact List.prefix_append _ _

/-- C75.  Damage does not spread: where a damaged copy still has the byte of the copy, the
    decrypted file has the byte of the silo. -/
theorem C75_damage (C : Crypto) (k : Secrets) (d d' d'' n content g copy bad got : Bytes)
    (fs fs' : List File) (hn : (47 : UInt8) ∉ n)
    (h : encryptFile C k (join d n) content (join d' (n ++ b!".bin")) = .ok fs)
    (hc : fs.head? = some ⟨join d' (n ++ b!".bin"), copy⟩)
    (h' : encryptFile C k (join d'' (n ++ b!".bin")) bad g = .ok fs')
    (hc' : fs'.head? = some ⟨g, got⟩) (i : Nat) (hi : bad[i]? = copy[i]?) :
    got[i]? = content[i]? := by
  obtain ⟨_, e⟩ := encryptFile_ok h
  obtain ⟨_, e'⟩ := encryptFile_ok h'
  subst e e'
  simp only [List.head?_cons, Option.some.injEq, File.mk.injEq, true_and] at hc hc'
  subst hc hc'
  rw [xorFrom_getElem?, hi, ivOf_bin C k.skey d d'' n hn, xorFrom_getElem?, Option.map_map]
  cases content[i]? <;> simp [UInt8.xor_assoc]

/-- C75.  The copy is the silo in counter mode: each 16 bytes are combined with one encrypted counter block; the
    first one is the start of the HMAC of the name, and no block is used twice in a silo of less than `2^132` bytes. -/
theorem C75_counter (C : Crypto) (k : Secrets) (d n content dfn copy : Bytes) (fs : List File) (hn : (47 : UInt8) ∉ n)
    (hl : ∀ t, 16 ≤ (C.hmac k.skey t).length) (h : encryptFile C k (join d n) content dfn = .ok fs) (hc : fs.head? = some ⟨dfn, copy⟩) :
    ∃ ctr : Nat → Bytes, ctr 0 = (C.hmac k.skey (dropBin n)).take 16 ∧ (∀ i, (ctr i).length = 16 ∧ beDec (ctr (i + 1)) = (beDec (ctr i) + 1) % 2 ^ 128) ∧
      (∀ i j, i < 2 ^ 128 → j < 2 ^ 128 → ctr i = ctr j → i = j) ∧
      ∀ i j c, j < 16 → content[16 * i + j]? = some c → copy[16 * i + j]? = some (c ^^^ (C.aes k.pkey (ctr i)).getD j 0) := by
  obtain ⟨_, e⟩ := encryptFile_ok h
  subst e
  simp only [List.head?_cons, Option.some.injEq, File.mk.injEq, true_and] at hc
  subst hc
  rw [ivOf_join C k.skey d n hn]
  generalize hiv : (C.hmac k.skey (dropBin n)).take 16 = iv
  have h16 : iv.length = 16 := by rw [← hiv, List.length_take]; have := hl (dropBin n); omega
  have e256 : (256 : Nat) ^ 16 = 2 ^ 128 := by decide
  refine ⟨fun i => beEnc 16 (beDec iv + i), ?_, fun i => ⟨beEnc_length _ _, ?_⟩, fun i j hi hj hij => ?_, fun i j c hj hcc => ?_⟩
  · show beEnc 16 (beDec iv + 0) = iv
    rw [Nat.add_zero, ← h16]
    exact beEnc_beDec iv
  · simp only [beDec_beEnc, e256, Nat.mod_add_mod, Nat.add_assoc]
  · have := congrArg beDec hij
    simp only [beDec_beEnc, e256] at this
    rw [show (2 : Nat) ^ 128 = 340282366920938463463374607431768211456 by decide] at this hi hj
    omega
  · rw [xorFrom_getElem?, hcc, Option.map_some, keystream]
    rw [show (0 + (16 * i + j)) / 16 = i by omega, show (0 + (16 * i + j)) % 16 = j by omega]

/-- C75, the part that fails.  Whatever the key, two copies made under one name reveal how
    their silos differ: the key stream depends on the name only.  `rebuild` gives a new
    archive silos of the old names. -/
theorem C75_counterexample_reuse (C : Crypto) (k : Secrets) (d d' g g' n a a' copy copy' : Bytes)
    (fs fs' : List File) (hn : (47 : UInt8) ∉ n)
    (h : encryptFile C k (join d n) a g = .ok fs) (h' : encryptFile C k (join d' n) a' g' = .ok fs')
    (hc : fs.head? = some ⟨g, copy⟩) (hc' : fs'.head? = some ⟨g', copy'⟩)
    (i : Nat) (x x' y y' : UInt8) (hx : a[i]? = some x) (hx' : a'[i]? = some x')
    (hy : copy[i]? = some y) (hy' : copy'[i]? = some y') : y ^^^ y' = x ^^^ x' := by
  obtain ⟨_, e⟩ := encryptFile_ok h
  obtain ⟨_, e'⟩ := encryptFile_ok h'
  subst e e'
  simp only [List.head?_cons, Option.some.injEq, File.mk.injEq, true_and] at hc hc'
  subst hc hc'
  rw [xorFrom_getElem?, hx] at hy
  rw [xorFrom_getElem?, hx', ivOf_join _ _ _ _ hn, ← ivOf_join C k.skey d n hn] at hy'
  simp only [Option.map_some, Option.some.injEq] at hy hy'
  subst hy hy'
  generalize keystream C k.pkey (ivOf C k.skey (join d n)) (0 + i) = z
  rw [UInt8.xor_comm x z, UInt8.xor_comm x' z, UInt8.xor_assoc, ← UInt8.xor_assoc x z x',
    UInt8.xor_comm x z, UInt8.xor_assoc z x x', ← UInt8.xor_assoc z z, UInt8.xor_self,
    UInt8.zero_xor]

/-- Primitives for the examples. -/
def toyCrypto : Crypto where
  aes k b := (k ++ b).reverse.map (fun c => c * 7 + 3)
  hmac k t := (k ++ t).reverse.map (fun c => c * 5 + 1)
  sha256 t := [UInt8.ofNat (beDec t)]

def toyKeys : Secrets := ⟨b!"0123456789abcdef", b!"key"⟩

/-- A copy, and back. -/
example :
    encryptFile toyCrypto toyKeys b!"/silos/00000007.warc.gz" b!"A silo of some length" b!"/st/00000007.warc.gz.bin" =
      .ok [⟨b!"/st/00000007.warc.gz.bin",
          [219, 186, 233, 243, 246, 245, 186, 224, 50, 111, 62, 207, 254, 49, 63, 212, 196, 244, 253, 238, 242]⟩,
        ⟨b!"/st/00000007.warc.gz.bin.hmac", b!"bba7f2c5d5253cf6f70c372cfb61a3cacfc08ea3485efa18\n"⟩,
        ⟨b!"/st/00000007.warc.gz.bin.sha256", b!"SHA256 (00000007.warc.gz.bin) = f2\n"⟩] := by
  decide +kernel

example : ∃ fs, encryptFile toyCrypto toyKeys b!"/back/00000007.warc.gz.bin"
      [219, 186, 233, 243, 246, 245, 186, 224, 50, 111, 62, 207, 254, 49, 63, 212, 196, 244, 253, 238, 242]
      b!"/new/00000007.warc.gz" = .ok fs ∧
    ⟨b!"/new/00000007.warc.gz", b!"A silo of some length"⟩ ∈ fs := by
  refine ⟨_, rfl, ?_⟩
  decide +kernel

end Verif.Props
