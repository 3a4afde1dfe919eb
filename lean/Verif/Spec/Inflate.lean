/-
Specification: the DEFLATE format (RFC 1951) and the GZIP format (RFC 1952), as an executable decoder
over bit lists.  Nothing here is taken from the code under study; zlib is assumed to agree with it.
-/
import Verif.Spec.Crc

namespace Verif.Inflate
open Verif

/-- A bit stream, in the order in which DEFLATE reads it. -/
abbrev Bits := List Bool

/-- RFC 1951 3.1.1: the bits of a byte, least significant first. -/
def byteBits (b : UInt8) : Bits := (List.range 8).map (fun i => b.toNat.testBit i)

def toBits (l : Bytes) : Bits := l.flatMap byteBits

/-- A decoder takes a bit stream and returns a value and the rest of the stream. -/
def Parser (α : Type) : Type := Bits → Option (α × Bits)

namespace Parser

def pure {α : Type} (a : α) : Parser α := fun bs => some (a, bs)
def fail {α : Type} : Parser α := fun _ => none
def bind {α β : Type} (p : Parser α) (f : α → Parser β) : Parser β := fun bs =>
  match p bs with
  | none => none
  | some (a, r) => f a r

instance : Monad Parser where
  pure := Parser.pure
  bind := Parser.bind

end Parser

/-- One bit. -/
def bit : Parser Bool
  | [] => none
  | b :: bs => some (b, bs)

/-- An `n` bit number, least significant bit first. -/
def bits : Nat → Parser Nat
  | 0 => Parser.pure 0
  | n + 1 => Parser.bind bit fun b => Parser.bind (bits n) fun v => Parser.pure (b.toNat + 2 * v)

/-- Fail unless the condition holds. -/
def require (c : Bool) : Parser Unit := if c then Parser.pure () else Parser.fail

/-- RFC 1951 3.2.4: skip to the next byte boundary.  The stream ends on a byte boundary, so the number
of bits to skip is what is left modulo 8. -/
def align : Parser Unit := fun bs => some ((), bs.drop (bs.length % 8))

/-- `n` bytes. -/
def bytes : Nat → Parser Bytes
  | 0 => Parser.pure []
  | n + 1 => Parser.bind (bits 8) fun v => Parser.bind (bytes n) fun l => Parser.pure (UInt8.ofNat v :: l)

/-- What a DEFLATE stream is made of: literal bytes and references to earlier output. -/
inductive Tok where
  | lit (b : UInt8)
  | copy (len dist : Nat)
  deriving DecidableEq, Repr

/-! ### Huffman codes, RFC 1951 3.2.2 -/

/-- A code is given by the code length of each symbol; zero means the symbol is not used. -/
abbrev Lengths := List Nat

/-- Number of symbols with code length `l`. -/
def blCount (ls : Lengths) (l : Nat) : Nat := if l = 0 then 0 else ls.countP (· == l)

/-- The numerically smallest code of each length. -/
def nextCode (ls : Lengths) : Nat → Nat
  | 0 => 0
  | l + 1 => (nextCode ls l + blCount ls l) * 2

/-- Codes of one length are consecutive, in the order of the symbols: all (length, code, symbol). -/
def codeTable (ls : Lengths) : List (Nat × Nat × Nat) :=
  (List.range 15).flatMap fun i =>
    let l := i + 1
    let syms := (List.range ls.length).filter (fun s => ls.getD s 0 == l)
    (List.range syms.length).map fun j => (l, nextCode ls l + j, syms.getD j 0)

/-- Read one symbol: take bits, most significant first, until they are a code. -/
def symbolAux (tbl : List (Nat × Nat × Nat)) : (fuel len code : Nat) → Parser Nat
  | 0, _, _ => Parser.fail
  | fuel + 1, len, code => Parser.bind bit fun b =>
    match tbl.find? (fun e => e.1 == len + 1 && e.2.1 == 2 * code + b.toNat) with
    | some e => Parser.pure e.2.2
    | none => symbolAux tbl fuel (len + 1) (2 * code + b.toNat)

def symbol (tbl : List (Nat × Nat × Nat)) : Parser Nat := symbolAux tbl 15 0 0

/-- Sum of 2^(15-length): the space the code takes up, out of 2^15. -/
def kraft (ls : Lengths) : Nat := (ls.map fun l => if l = 0 then 0 else 2 ^ (15 - l)).sum

/-- A code must use up the code space; a single code of length one is also allowed, and, for distances,
no code at all. -/
def goodCode (ls : Lengths) : Bool :=
  kraft ls == 2 ^ 15 || (ls.all (fun l => l == 0 || l == 1) && ls.countP (· == 1) ≤ 1)

/-! ### Compressed blocks, RFC 1951 3.2.5 -/

/-- Length symbols 257..285: base and number of extra bits. -/
def lenTable : List (Nat × Nat) :=
  [(3,0),(4,0),(5,0),(6,0),(7,0),(8,0),(9,0),(10,0),(11,1),(13,1),(15,1),(17,1),(19,2),(23,2),(27,2),(31,2),
   (35,3),(43,3),(51,3),(59,3),(67,4),(83,4),(99,4),(115,4),(131,5),(163,5),(195,5),(227,5),(258,0)]

/-- Distance symbols 0..29. -/
def distTable : List (Nat × Nat) :=
  [(1,0),(2,0),(3,0),(4,0),(5,1),(7,1),(9,2),(13,2),(17,3),(25,3),(33,4),(49,4),(65,5),(97,5),(129,6),(193,6),
   (257,7),(385,7),(513,8),(769,8),(1025,9),(1537,9),(2049,10),(3073,10),(4097,11),(6145,11),(8193,12),(12289,12),
   (16385,13),(24577,13)]

/-- A number from base and extra bits. -/
def extra (t : List (Nat × Nat)) (i : Nat) : Parser Nat :=
  match t[i]? with
  | none => Parser.fail
  | some (base, n) => Parser.bind (bits n) fun v => Parser.pure (base + v)

/-- Symbols up to the end of the block; `fuel` bounds their number. -/
def symbols (lit dist : List (Nat × Nat × Nat)) : (fuel : Nat) → Parser (List Tok)
  | 0 => Parser.fail
  | fuel + 1 => Parser.bind (symbol lit) fun s =>
    if s < 256 then
      Parser.bind (symbols lit dist fuel) fun ts => Parser.pure (.lit (UInt8.ofNat s) :: ts)
    else if s = 256 then Parser.pure []
    else
      Parser.bind (extra lenTable (s - 257)) fun len =>
      Parser.bind (symbol dist) fun d =>
      Parser.bind (extra distTable d) fun dst =>
      Parser.bind (symbols lit dist fuel) fun ts => Parser.pure (.copy len dst :: ts)

/-- Every symbol takes at least one bit. -/
def symbolsAll (lit dist : List (Nat × Nat × Nat)) : Parser (List Tok) := fun bs => symbols lit dist (bs.length + 1) bs

/-- RFC 1951 3.2.6: the fixed code. -/
def fixedLit : Lengths :=
  List.replicate 144 8 ++ List.replicate 112 9 ++ List.replicate 24 7 ++ List.replicate 8 8
def fixedDist : Lengths := List.replicate 30 5

/-! ### Dynamic codes, RFC 1951 3.2.7 -/

/-- The order of the code length code lengths. -/
def clOrder : List Nat := [16, 17, 18, 0, 8, 7, 9, 6, 10, 5, 11, 4, 12, 3, 13, 2, 14, 1, 15]

def clLengths : Nat → Parser (List Nat)
  | 0 => Parser.pure []
  | n + 1 => Parser.bind (bits 3) fun v => Parser.bind (clLengths n) fun l => Parser.pure (v :: l)

/-- The code lengths of the code length alphabet in the order of its symbols. -/
def clCode (l : List Nat) : Lengths :=
  (List.range 19).map fun s => (((clOrder.zip l).find? (fun e => e.1 == s)).map (·.2)).getD 0

/-- Run-length coded code lengths; `acc` holds those read so far, last one first. -/
def codeLengths (cl : List (Nat × Nat × Nat)) (want : Nat) : (fuel : Nat) → List Nat → Parser (List Nat)
  | 0, _ => Parser.fail
  | fuel + 1, acc =>
    if acc.length = want then Parser.pure acc.reverse
    else if want < acc.length then Parser.fail
    else Parser.bind (symbol cl) fun s =>
      if s < 16 then codeLengths cl want fuel (s :: acc)
      else if s = 16 then
        match acc.head? with
        | none => Parser.fail
        | some l => Parser.bind (bits 2) fun n => codeLengths cl want fuel (List.replicate (3 + n) l ++ acc)
      else if s = 17 then Parser.bind (bits 3) fun n => codeLengths cl want fuel (List.replicate (3 + n) 0 ++ acc)
      else Parser.bind (bits 7) fun n => codeLengths cl want fuel (List.replicate (11 + n) 0 ++ acc)

/-- The header of a block with dynamic codes: the code lengths for literals/lengths and for distances. -/
def dynamicCodes : Parser (Lengths × Lengths) :=
  Parser.bind (bits 5) fun hlit =>
  Parser.bind (bits 5) fun hdist =>
  Parser.bind (bits 4) fun hclen =>
  Parser.bind (require (hlit + 257 ≤ 286 && hdist + 1 ≤ 30)) fun _ =>
  Parser.bind (clLengths (hclen + 4)) fun cl =>
  Parser.bind (require (goodCode (clCode cl))) fun _ =>
  Parser.bind (codeLengths (codeTable (clCode cl)) (hlit + 257 + (hdist + 1)) (hlit + 257 + (hdist + 1) + 1) []) fun ls =>
  Parser.bind (require (goodCode (ls.take (hlit + 257)) && goodCode (ls.drop (hlit + 257)) && ls.getD 256 0 != 0)) fun _ =>
  Parser.pure (ls.take (hlit + 257), ls.drop (hlit + 257))

/-! ### Blocks, RFC 1951 3.2.3 -/

/-- RFC 1951 3.2.4: a stored block. -/
def stored : Parser (List Tok) :=
  Parser.bind align fun _ =>
  Parser.bind (bits 16) fun len =>
  Parser.bind (bits 16) fun nlen =>
  Parser.bind (require (len + nlen == 65535)) fun _ =>
  Parser.bind (bytes len) fun d => Parser.pure (d.map .lit)

/-- The contents of a block of the given type. -/
def blockBody (type : Nat) : Parser (List Tok) :=
  if type = 0 then stored
  else if type = 1 then symbolsAll (codeTable fixedLit) (codeTable fixedDist)
  else if type = 2 then
    Parser.bind dynamicCodes fun c => symbolsAll (codeTable c.1) (codeTable c.2)
  else Parser.fail

/-- One block: whether it is the last one, and its contents. -/
def block : Parser (Bool × List Tok) :=
  Parser.bind bit fun fin => Parser.bind (bits 2) fun type => Parser.bind (blockBody type) fun ts => Parser.pure (fin, ts)

/-- Blocks up to and including the last one. -/
def blocks : (fuel : Nat) → Parser (List Tok)
  | 0 => Parser.fail
  | fuel + 1 => Parser.bind block fun b =>
    if b.1 then Parser.pure b.2 else Parser.bind (blocks fuel) fun ts => Parser.pure (b.2 ++ ts)

/-- Exactly `n` blocks, none of them marked as the last one. -/
def openBlocks : Nat → Parser (List Tok)
  | 0 => Parser.pure []
  | n + 1 => Parser.bind block fun b =>
    Parser.bind (require (!b.1)) fun _ => Parser.bind (openBlocks n) fun ts => Parser.pure (b.2 ++ ts)

/-- The tokens of a DEFLATE stream; every block takes at least three bits. -/
def deflateToks : Parser (List Tok) := fun bs => blocks (bs.length + 1) bs

/-! ### Output -/

/-- RFC 1951 2: copy `len` bytes from `dist` bytes back, one by one; the output is kept in reverse. -/
def copyBack : (len dist : Nat) → Bytes → Option Bytes
  | 0, _, out => some out
  | len + 1, dist, out =>
    if dist = 0 then none
    else
      match out[dist - 1]? with
      | none => none
      | some c => copyBack len dist (c :: out)

/-- Run the tokens on (reversed) output. -/
def expandR : List Tok → Bytes → Option Bytes
  | [], out => some out
  | .lit b :: ts, out => expandR ts (b :: out)
  | .copy len dist :: ts, out =>
    match copyBack len dist out with
    | none => none
    | some o => expandR ts o

def expand (ts : List Tok) : Option Bytes := (expandR ts []).map List.reverse

/-! ### GZIP members, RFC 1952 -/

/-- A zero-terminated string. -/
def skipZ : Bytes → Option Bytes
  | [] => none
  | c :: l => if c = 0 then some l else skipZ l

/-- The extra field: a 16 bit length and as many bytes. -/
def skipExtra : Bytes → Option Bytes
  | a :: b :: l => if a.toNat + 256 * b.toNat ≤ l.length then some (l.drop (a.toNat + 256 * b.toNat)) else none
  | _ => none

/-- The checksum of the header (not checked). -/
def skipCrc (l : Bytes) : Option Bytes := if 2 ≤ l.length then some (l.drop 2) else none

/-- RFC 1952 2.3: skip the header; reserved flags must be zero. -/
def gzHeader : Bytes → Option Bytes
  | id1 :: id2 :: cm :: flg :: _ :: _ :: _ :: _ :: _ :: _ :: l =>
    if id1 = 0x1f ∧ id2 = 0x8b ∧ cm = 8 ∧ flg < 32 then
      (if flg.toNat.testBit 2 then skipExtra l else some l).bind fun l =>
        (if flg.toNat.testBit 3 then skipZ l else some l).bind fun l =>
          (if flg.toNat.testBit 4 then skipZ l else some l).bind fun l =>
            if flg.toNat.testBit 1 then skipCrc l else some l
    else none
  | _ => none

/-- Decode one gzip member at the start of the bytes: its contents and what follows it. -/
def gunzip1 (l : Bytes) : Option (Bytes × Bytes) :=
  match gzHeader l with
  | none => none
  | some d =>
    match deflateToks (toBits d) with
    | none => none
    | some (ts, r) =>
      let t := d.drop (d.length - r.length / 8)
      match expand ts with
      | none => none
      | some out =>
        if 8 ≤ t.length ∧ leDec (t.take 4) = (Crc.crc32 out).toNat ∧ leDec ((t.drop 4).take 4) = out.length % 2 ^ 32 then
          some (out, t.drop 8)
        else none

/-- A file consisting of one gzip member. -/
def gunzip (l : Bytes) : Option Bytes :=
  match gunzip1 l with
  | some (out, []) => some out
  | _ => none

end Verif.Inflate
