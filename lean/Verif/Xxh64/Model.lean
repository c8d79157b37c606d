import Verif.Xxh3.Model

/-!
Model of the older hash functions XXH32 and XXH64 next to XXH3 (/repo/src/clean-core/detail/xxHash/xxhash.hh:1095-1485, 1620-2025): at once, streaming, and the canonical representation.

Memory is as in Xxh3/Model.lean: a block is a list of bytes, pointers are offsets into it, and reading or writing outside is undefined behaviour. Here a block has an address too, because the functions read whole
words through a pointer if the data is aligned. Not modelled: that the comparisons `p <= bEnd - 16` (1404) and `p + 32 <= bEnd` (1950) form pointers outside the block, and the byte-wise loads of
`XXH_FORCE_MEMORY_ACCESS == 3`. `XXH_ACCEPT_NULL_INPUT_POINTER` is not defined. Lengths are those of data in memory, so `memsize + len` does not wrap around.
-/
namespace Verif.Xxh64
open Verif.Xxh3 (Byte U32 U64 Mem rd8 swap32 swap64 read32 read64 readLE32 readLE64 copyTo slice bytesOf rotl64 PRIME32_1 PRIME32_2 PRIME32_3 PRIME64_1 PRIME64_2 PRIME64_3 PRIME64_4 PRIME64_5)

/-- What is chosen at compile time. -/
structure Cfg extends Xxh3.Cfg where
  /-- `XXH_REROLL` (xxhash.hh:826-832) -/
  reroll : Bool
  /-- `XXH_REROLL_XXH64` (xxhash.hh:1515-1526) -/
  reroll64 : Bool
  /-- `XXH_FORCE_ALIGN_CHECK` (xxhash.hh:783-789) -/
  alignCheck : Bool
deriving DecidableEq, Repr

/-- `XXH_alignment` (xxhash.hh:1047-1051). -/
inductive Align where
  | aligned | unaligned
deriving DecidableEq, Repr

/-- A block of memory at an address. -/
structure Block where
  addr : Nat
  mem : Mem
deriving DecidableEq, Repr

/-- `XXH_readLE32_align` (xxhash.hh:1078-1088). -/
def readAl32 (cfg : Cfg) (al : Align) (b : Block) (i : Nat) : R U32 :=
  match al with
  | .unaligned => readLE32 cfg.toCfg b.mem i
  | .aligned => if (b.addr + i) % 4 = 0 then readLE32 cfg.toCfg b.mem i else .error .ub

/-- `XXH_readLE64_align` (xxhash.hh:1604-1610). -/
def readAl64 (cfg : Cfg) (al : Align) (b : Block) (i : Nat) : R U64 :=
  match al with
  | .unaligned => readLE64 cfg.toCfg b.mem i
  | .aligned => if (b.addr + i) % 8 = 0 then readLE64 cfg.toCfg b.mem i else .error .ub

/-! ### 32 bit (xxhash.hh:1103-1330) -/

def PRIME32_4 : U32 := 0x27D4EB2F#32
def PRIME32_5 : U32 := 0x165667B1#32

/-- `XXH_rotl32` (xxhash.hh:1028). -/
def rotl32 (x : U32) (r : Nat) : U32 := (x <<< r) ||| (x >>> (32 - r))

/-- `XXH32_round` (xxhash.hh:1106-1160). -/
def round32 (acc input : U32) : U32 := rotl32 (acc + input * PRIME32_2) 13 * PRIME32_1

/-- `XXH32_avalanche` (xxhash.hh:1163-1171). -/
def avalanche32 (h : U32) : U32 :=
  let h := h ^^^ (h >>> 15)
  let h := h * PRIME32_2
  let h := h ^^^ (h >>> 13)
  let h := h * PRIME32_3
  h ^^^ (h >>> 16)

/-- The lines in the `switch` statements of the two `finalize` functions. -/
inductive Line where
  | case (n : Nat)
  | p8 | p4 | p1
  | ret
deriving DecidableEq, Repr

/-- What is executed after jumping to a label: everything up to the `return`. `none` if there is no such label or no `return`. -/
def upToRet : List Line → Option (List Line)
  | [] => none
  | .ret :: _ => some []
  | .case _ :: r => upToRet r
  | l :: r => (upToRet r).map (l :: ·)

def jump (n : Nat) : List Line → Option (List Line)
  | [] => none
  | .case k :: r => if k = n then upToRet r else jump n r
  | _ :: r => jump n r

/-- xxhash.hh:1211-1260. -/
def switch32 : List Line :=
  [.case 12, .p4, .case 8, .p4, .case 4, .p4, .ret,
   .case 13, .p4, .case 9, .p4, .case 5, .p4, .p1, .ret,
   .case 14, .p4, .case 10, .p4, .case 6, .p4, .p1, .p1, .ret,
   .case 15, .p4, .case 11, .p4, .case 7, .p4, .case 3, .p1, .case 2, .p1, .case 1, .p1, .case 0, .ret]

/-- `PROCESS1` and `PROCESS4` (xxhash.hh:1177-1190); the pointer is moved too. There is no `PROCESS8` here. -/
def process32 (cfg : Cfg) (al : Align) (b : Block) : Line → U32 × Nat → R (U32 × Nat)
  | .p1, (h, i) => do
    let x ← rd8 b.mem i
    .ok (rotl32 (h + x.setWidth 32 * PRIME32_5) 11 * PRIME32_1, i + 1)
  | .p4, (h, i) => do
    let x ← readAl32 cfg al b i
    .ok (rotl32 (h + x * PRIME32_3) 17 * PRIME32_4, i + 4)
  | _, _ => .error .ub

def processAll32 (cfg : Cfg) (al : Align) (b : Block) : List Line → U32 × Nat → R (U32 × Nat)
  | [], s => .ok s
  | l :: ls, s => do
    let s ← process32 cfg al b l s
    processAll32 cfg al b ls s

/-- The loops `while (len >= 4)` and `while (len > 0)` (xxhash.hh:1196-1205), at most `fuel` rounds. -/
def rerolled32 (cfg : Cfg) (al : Align) (b : Block) : Nat → Nat → U32 × Nat → R (U32 × Nat)
  | 0, _, s => .ok s
  | fuel + 1, len, s =>
    if 4 ≤ len then do
      let s ← process32 cfg al b .p4 s
      rerolled32 cfg al b fuel (len - 4) s
    else if 0 < len then do
      let s ← process32 cfg al b .p1 s
      rerolled32 cfg al b fuel (len - 1) s
    else .ok s

/-- `XXH32_finalize` (xxhash.hh:1175-1269). -/
def finalize32 (cfg : Cfg) (h : U32) (b : Block) (i len : Nat) (al : Align) : R U32 :=
  if cfg.reroll then do
    let (h, _) ← rerolled32 cfg al b 16 (len % 16) (h, i)
    .ok (avalanche32 h)
  else
    match jump (len % 16) switch32 with
    | none => do
      Xxh3.xassert cfg.toCfg false
      .ok h
    | some ls => do
      let (h, _) ← processAll32 cfg al b ls (h, i)
      .ok (avalanche32 h)

/-- The four accumulators. -/
structure Acc32 where
  v1 : U32
  v2 : U32
  v3 : U32
  v4 : U32
deriving DecidableEq, Repr

/-- xxhash.hh:1287-1290, 1356-1359. -/
def start32 (seed : U32) : Acc32 := ⟨seed + PRIME32_1 + PRIME32_2, seed + PRIME32_2, seed + 0#32, seed - PRIME32_1⟩

/-- Sixteen bytes (xxhash.hh:1294-1301, 1386-1393, 1414-1421). -/
def stripe32 (cfg : Cfg) (al : Align) (b : Block) (i : Nat) (v : Acc32) : R Acc32 := do
  let x1 ← readAl32 cfg al b i
  let x2 ← readAl32 cfg al b (i + 4)
  let x3 ← readAl32 cfg al b (i + 8)
  let x4 ← readAl32 cfg al b (i + 12)
  .ok ⟨round32 v.v1 x1, round32 v.v2 x2, round32 v.v3 x3, round32 v.v4 x4⟩

/-- The loop `do … while (input < limit)` (xxhash.hh:1292-1302), at most `fuel` rounds. -/
def loop32 (cfg : Cfg) (al : Align) (b : Block) (limit : Nat) : Nat → Nat → Acc32 → R (Acc32 × Nat)
  | 0, i, v => .ok (v, i)
  | fuel + 1, i, v => do
    let v ← stripe32 cfg al b i v
    if i + 16 < limit then loop32 cfg al b limit fuel (i + 16) v else .ok (v, i + 16)

/-- xxhash.hh:1304, 1449. -/
def merge32 (v : Acc32) : U32 := rotl32 v.v1 1 + rotl32 v.v2 7 + rotl32 v.v3 12 + rotl32 v.v4 18

/-- `XXH32_endian_align` (xxhash.hh:1271-1314). -/
def endianAlign32 (cfg : Cfg) (b : Block) (len : Nat) (seed : U32) (al : Align) : R U32 := do
  let (h, i) ← (if 16 ≤ len then do
      let (v, i) ← loop32 cfg al b (len - 15) len 0 (start32 seed)
      .ok (merge32 v, i)
    else .ok (seed + PRIME32_5, 0) : R (U32 × Nat))
  let h := h + BitVec.ofNat 32 len
  finalize32 cfg h b i (len % 16) al

/-- `XXH32` (xxhash.hh:1317-1338). -/
def xxh32 (cfg : Cfg) (b : Block) (len : Nat) (seed : U32) : R U32 :=
  if cfg.alignCheck && decide (b.addr % 4 = 0) then endianAlign32 cfg b len seed .aligned else endianAlign32 cfg b len seed .unaligned

/-! ### 64 bit (xxhash.hh:1615-1890) -/

/-- `XXH64_round` (xxhash.hh:1621-1627). -/
def round64 (acc input : U64) : U64 := rotl64 (acc + input * PRIME64_2) 31 * PRIME64_1

/-- `XXH64_mergeRound` (xxhash.hh:1629-1635). -/
def mergeRound64 (acc val : U64) : U64 := (acc ^^^ round64 0#64 val) * PRIME64_1 + PRIME64_4

/-- `XXH64_avalanche` (xxhash.hh:1637-1645). -/
def avalanche64 (h : U64) : U64 :=
  let h := h ^^^ (h >>> 33)
  let h := h * PRIME64_2
  let h := h ^^^ (h >>> 29)
  let h := h * PRIME64_3
  h ^^^ (h >>> 32)

/-- xxhash.hh:1699-1811. -/
def switch64 : List Line :=
  [.case 24, .p8, .case 16, .p8, .case 8, .p8, .ret,
   .case 28, .p8, .case 20, .p8, .case 12, .p8, .case 4, .p4, .ret,
   .case 25, .p8, .case 17, .p8, .case 9, .p8, .p1, .ret,
   .case 29, .p8, .case 21, .p8, .case 13, .p8, .case 5, .p4, .p1, .ret,
   .case 26, .p8, .case 18, .p8, .case 10, .p8, .p1, .p1, .ret,
   .case 30, .p8, .case 22, .p8, .case 14, .p8, .case 6, .p4, .p1, .p1, .ret,
   .case 27, .p8, .case 19, .p8, .case 11, .p8, .p1, .p1, .p1, .ret,
   .case 31, .p8, .case 23, .p8, .case 15, .p8, .case 7, .p4, .case 3, .p1, .case 2, .p1, .case 1, .p1, .case 0, .ret]

/-- `PROCESS1_64`, `PROCESS4_64` and `PROCESS8_64` (xxhash.hh:1652-1674). -/
def process64 (cfg : Cfg) (al : Align) (b : Block) : Line → U64 × Nat → R (U64 × Nat)
  | .p1, (h, i) => do
    let x ← rd8 b.mem i
    .ok (rotl64 (h ^^^ (x.setWidth 64 * PRIME64_5)) 11 * PRIME64_1, i + 1)
  | .p4, (h, i) => do
    let x ← readAl32 cfg al b i
    .ok (rotl64 (h ^^^ (x.setWidth 64 * PRIME64_1)) 23 * PRIME64_2 + PRIME64_3, i + 4)
  | .p8, (h, i) => do
    let x ← readAl64 cfg al b i
    .ok (rotl64 (h ^^^ round64 0#64 x) 27 * PRIME64_1 + PRIME64_4, i + 8)
  | _, _ => .error .ub

def processAll64 (cfg : Cfg) (al : Align) (b : Block) : List Line → U64 × Nat → R (U64 × Nat)
  | [], s => .ok s
  | l :: ls, s => do
    let s ← process64 cfg al b l s
    processAll64 cfg al b ls s

/-- `while (len >= 8)` (xxhash.hh:1680-1684), at most `fuel` rounds; the length that is left is returned too. -/
def while8 (cfg : Cfg) (al : Align) (b : Block) : Nat → Nat → U64 × Nat → R (Nat × U64 × Nat)
  | 0, len, s => .ok (len, s)
  | fuel + 1, len, s =>
    if 8 ≤ len then do
      let s ← process64 cfg al b .p8 s
      while8 cfg al b fuel (len - 8) s
    else .ok (len, s)

/-- `while (len > 0)` (xxhash.hh:1690-1694). -/
def while1 (cfg : Cfg) (al : Align) (b : Block) : Nat → U64 × Nat → R (U64 × Nat)
  | 0, s => .ok s
  | len + 1, s => do
    let s ← process64 cfg al b .p1 s
    while1 cfg al b len s

/-- `XXH64_finalize` (xxhash.hh:1650-1817). -/
def finalize64 (cfg : Cfg) (h : U64) (b : Block) (i len : Nat) (al : Align) : R U64 :=
  if cfg.reroll || cfg.reroll64 then do
    let (len, s) ← while8 cfg al b 4 (len % 32) (h, i)
    let (len, s) ← (if 4 ≤ len then do
        let s ← process64 cfg al b .p4 s
        .ok (len - 4, s)
      else .ok (len, s) : R (Nat × U64 × Nat))
    let (h, _) ← while1 cfg al b len s
    .ok (avalanche64 h)
  else
    match jump (len % 32) switch64 with
    | none => do
      Xxh3.xassert cfg.toCfg false
      .ok 0#64
    | some ls => do
      let (h, _) ← processAll64 cfg al b ls (h, i)
      .ok (avalanche64 h)

structure Acc64 where
  v1 : U64
  v2 : U64
  v3 : U64
  v4 : U64
deriving DecidableEq, Repr

/-- xxhash.hh:1835-1838, 1908-1911. -/
def start64 (seed : U64) : Acc64 := ⟨seed + PRIME64_1 + PRIME64_2, seed + PRIME64_2, seed + 0#64, seed - PRIME64_1⟩

/-- Thirty-two bytes (xxhash.hh:1842-1849, 1942-1945, 1960-1967). -/
def stripe64 (cfg : Cfg) (al : Align) (b : Block) (i : Nat) (v : Acc64) : R Acc64 := do
  let x1 ← readAl64 cfg al b i
  let x2 ← readAl64 cfg al b (i + 8)
  let x3 ← readAl64 cfg al b (i + 16)
  let x4 ← readAl64 cfg al b (i + 24)
  .ok ⟨round64 v.v1 x1, round64 v.v2 x2, round64 v.v3 x3, round64 v.v4 x4⟩

/-- The loop `do … while (input <= limit)` (xxhash.hh:1840-1850, 1958-1968), at most `fuel` rounds. -/
def loop64 (cfg : Cfg) (al : Align) (b : Block) (limit : Nat) : Nat → Nat → Acc64 → R (Acc64 × Nat)
  | 0, i, v => .ok (v, i)
  | fuel + 1, i, v => do
    let v ← stripe64 cfg al b i v
    if i + 32 ≤ limit then loop64 cfg al b limit fuel (i + 32) v else .ok (v, i + 32)

/-- xxhash.hh:1852-1856, 1998-2002. -/
def merge64 (v : Acc64) : U64 :=
  let h := rotl64 v.v1 1 + rotl64 v.v2 7 + rotl64 v.v3 12 + rotl64 v.v4 18
  let h := mergeRound64 h v.v1
  let h := mergeRound64 h v.v2
  let h := mergeRound64 h v.v3
  mergeRound64 h v.v4

/-- `XXH64_endian_align` (xxhash.hh:1819-1866). -/
def endianAlign64 (cfg : Cfg) (b : Block) (len : Nat) (seed : U64) (al : Align) : R U64 := do
  let (h, i) ← (if 32 ≤ len then do
      let (v, i) ← loop64 cfg al b (len - 32) len 0 (start64 seed)
      .ok (merge64 v, i)
    else .ok (seed + PRIME64_5, 0) : R (U64 × Nat))
  let h := h + BitVec.ofNat 64 len
  finalize64 cfg h b i len al

/-- `XXH64` (xxhash.hh:1869-1891). -/
def xxh64 (cfg : Cfg) (b : Block) (len : Nat) (seed : U64) : R U64 :=
  if cfg.alignCheck && decide (b.addr % 8 = 0) then endianAlign64 cfg b len seed .aligned else endianAlign64 cfg b len seed .unaligned

/-! ### Streaming, 32 bit (xxhash.hh:401-412, 1343-1460) -/

/-- `XXH32_state_s` (xxhash.hh:401-412). `mem` are the sixteen bytes of `mem32`, at an address that is a multiple of four. -/
structure State32 where
  totalLen : U32
  largeLen : Bool
  acc : Acc32
  mem : Mem
  memsize : Nat
deriving DecidableEq, Repr

/-- `XXH32_reset` (xxhash.hh:1352-1364). -/
def reset32 (seed : U32) : State32 := ⟨0#32, false, start32 seed, List.replicate 16 0#8, 0⟩

/-- The loop `do … while (p <= limit)` (xxhash.hh:1412-1422), at most `fuel` rounds. -/
def loopS32 (cfg : Cfg) (b : Block) (limit : Nat) : Nat → Nat → Acc32 → R (Acc32 × Nat)
  | 0, i, v => .ok (v, i)
  | fuel + 1, i, v => do
    let v ← stripe32 cfg .unaligned b i v
    if i + 16 ≤ limit then loopS32 cfg b limit fuel (i + 16) v else .ok (v, i + 16)

/-- `XXH32_update` (xxhash.hh:1366-1440) with data that is not null. -/
def update32 (cfg : Cfg) (s : State32) (b : Block) (len : Nat) : R State32 := do
  let t := s.totalLen + BitVec.ofNat 32 len
  let s := { s with totalLen := t, largeLen := s.largeLen || (decide (16 ≤ len) || decide (16 ≤ t.toNat)) }
  if s.memsize + len < 16 then
    let d ← slice b.mem 0 len
    let m ← copyTo s.mem s.memsize d
    .ok { s with mem := m, memsize := s.memsize + len }
  else
    let (s, p) ← (if s.memsize ≠ 0 then do
        let d ← slice b.mem 0 (16 - s.memsize)
        let m ← copyTo s.mem s.memsize d
        let v ← stripe32 cfg .unaligned ⟨0, m⟩ 0 s.acc
        .ok ({ s with acc := v, mem := m, memsize := 0 }, 16 - s.memsize)
      else .ok (s, 0) : R (State32 × Nat))
    let (v, p) ← (if p + 16 ≤ len then loopS32 cfg b (len - 16) len p s.acc else .ok (s.acc, p) : R (Acc32 × Nat))
    let s := { s with acc := v }
    if p < len then
      let d ← slice b.mem p (len - p)
      let m ← copyTo s.mem 0 d
      .ok { s with mem := m, memsize := len - p }
    else .ok s

/-- `XXH32_digest` (xxhash.hh:1443-1460). -/
def digest32 (cfg : Cfg) (s : State32) : R U32 :=
  let h := if s.largeLen then merge32 s.acc else s.acc.v3 + PRIME32_5
  let h := h + s.totalLen
  finalize32 cfg h ⟨0, s.mem⟩ 0 s.memsize .aligned

/-! ### Streaming, 64 bit (xxhash.hh:417-428, 1895-2011) -/

/-- `XXH64_state_s` (xxhash.hh:417-428). `mem` are the thirty-two bytes of `mem64`, at an address that is a multiple of eight. -/
structure State64 where
  totalLen : U64
  acc : Acc64
  mem : Mem
  memsize : Nat
deriving DecidableEq, Repr

/-- `XXH64_reset` (xxhash.hh:1904-1915). -/
def reset64 (seed : U64) : State64 := ⟨0#64, start64 seed, List.replicate 32 0#8, 0⟩

/-- `XXH64_update` (xxhash.hh:1917-1984) with data that is not null. -/
def update64 (cfg : Cfg) (s : State64) (b : Block) (len : Nat) : R State64 := do
  let s := { s with totalLen := s.totalLen + BitVec.ofNat 64 len }
  if s.memsize + len < 32 then
    let d ← slice b.mem 0 len
    let m ← copyTo s.mem s.memsize d
    .ok { s with mem := m, memsize := s.memsize + len }
  else
    let (s, p) ← (if s.memsize ≠ 0 then do
        let d ← slice b.mem 0 (32 - s.memsize)
        let m ← copyTo s.mem s.memsize d
        let v ← stripe64 cfg .unaligned ⟨0, m⟩ 0 s.acc
        .ok ({ s with acc := v, mem := m, memsize := 0 }, 32 - s.memsize)
      else .ok (s, 0) : R (State64 × Nat))
    let (v, p) ← (if p + 32 ≤ len then loop64 cfg .unaligned b (len - 32) len p s.acc else .ok (s.acc, p) : R (Acc64 × Nat))
    let s := { s with acc := v }
    if p < len then
      let d ← slice b.mem p (len - p)
      let m ← copyTo s.mem 0 d
      .ok { s with mem := m, memsize := len - p }
    else .ok s

/-- `XXH64_digest` (xxhash.hh:1987-2011). -/
def digest64 (cfg : Cfg) (s : State64) : R U64 :=
  let h := if 32 ≤ s.totalLen.toNat then merge64 s.acc else s.acc.v3 + PRIME64_5
  let h := h + s.totalLen
  finalize64 cfg h ⟨0, s.mem⟩ 0 s.totalLen.toNat .aligned

/-! ### Canonical representation (xxhash.hh:1477-1485, 2017-2025) -/

/-- The bytes of a number in the memory of the machine. -/
def store32 (cfg : Cfg) (v : U32) : Mem :=
  let bs := (List.range 4).map fun k => v.extractLsb' (8 * k) 8
  if cfg.little then bs else bs.reverse

def store64 (cfg : Cfg) (v : U64) : Mem := if cfg.little then bytesOf v else (bytesOf v).reverse

/-- `XXH32_canonicalFromHash` (xxhash.hh:1477-1483). -/
def canonical32 (cfg : Cfg) (h : U32) : Mem := store32 cfg (if cfg.little then swap32 h else h)

/-- `XXH32_hashFromCanonical` (xxhash.hh:1485) with `XXH_readBE32` (1075). -/
def fromCanonical32 (cfg : Cfg) (m : Mem) : R U32 := do
  let v ← read32 cfg.toCfg m 0
  .ok (if cfg.little then swap32 v else v)

/-- `XXH64_canonicalFromHash` (xxhash.hh:2017-2023). -/
def canonical64 (cfg : Cfg) (h : U64) : Mem := store64 cfg (if cfg.little then swap64 h else h)

/-- `XXH64_hashFromCanonical` (xxhash.hh:2025) with `XXH_readBE64` (1601). -/
def fromCanonical64 (cfg : Cfg) (m : Mem) : R U64 := do
  let v ← read64 cfg.toCfg m 0
  .ok (if cfg.little then swap64 v else v)

/-! ### Programs with several states -/

/-- The states of each kind, by address; `none` where there is none or it was not reset yet. -/
structure Heap where
  s32 : Nat → Option State32
  s64 : Nat → Option State64

def look {α : Type} (h : Nat → Option α) (i : Nat) : R α :=
  match h i with
  | some s => .ok s
  | none => .error .ub

def put {α : Type} (h : Nat → Option α) (i : Nat) (s : Option α) : Nat → Option α := fun j => if j = i then s else h j

/-- The calls; those that take data have a block. -/
inductive Op where
  | reset32 (i : Nat) (seed : U32)
  | update32 (i : Nat) (b : Block)
  | digest32 (i : Nat)
  | copy32 (dst src : Nat)
  | free32 (i : Nat)
  | reset64 (i : Nat) (seed : U64)
  | update64 (i : Nat) (b : Block)
  | digest64 (i : Nat)
  | copy64 (dst src : Nat)
  | free64 (i : Nat)
  /-- an update with a null pointer -/
  | updateNull32 (i : Nat)
  | updateNull64 (i : Nat)
deriving DecidableEq, Repr

/-- What the program sees: `XXH_OK` or `XXH_ERROR`, a hash, or nothing. -/
inductive Obs where
  | status (ok : Bool)
  | hash32 (h : U32)
  | hash64 (h : U64)
  | none
deriving DecidableEq, Repr

/-- One call. -/
def step (cfg : Cfg) (h : Heap) : Op → R (Heap × Obs)
  | .reset32 i seed => .ok ({ h with s32 := put h.s32 i (some (reset32 seed)) }, .status true)
  | .update32 i b => do
    let s ← look h.s32 i
    let s ← update32 cfg s b b.mem.length
    .ok ({ h with s32 := put h.s32 i (some s) }, .status true)
  | .digest32 i => do
    let s ← look h.s32 i
    let v ← digest32 cfg s
    .ok (h, .hash32 v)
  /- `XXH32_copyState` (xxhash.hh:1350): a `memcpy`, which may not overlap -/
  | .copy32 d i =>
    if d = i then .error .ub
    else do
      let s ← look h.s32 i
      .ok ({ h with s32 := put h.s32 d (some s) }, .none)
  /- `XXH32_freeState` (xxhash.hh:1344-1348) -/
  | .free32 i => .ok ({ h with s32 := put h.s32 i none }, .status true)
  | .reset64 i seed => .ok ({ h with s64 := put h.s64 i (some (reset64 seed)) }, .status true)
  | .update64 i b => do
    let s ← look h.s64 i
    let s ← update64 cfg s b b.mem.length
    .ok ({ h with s64 := put h.s64 i (some s) }, .status true)
  | .digest64 i => do
    let s ← look h.s64 i
    let v ← digest64 cfg s
    .ok (h, .hash64 v)
  /- `XXH64_copyState` (xxhash.hh:1902) -/
  | .copy64 d i =>
    if d = i then .error .ub
    else do
      let s ← look h.s64 i
      .ok ({ h with s64 := put h.s64 d (some s) }, .none)
  /- `XXH64_freeState` (xxhash.hh:1896-1900) -/
  | .free64 i => .ok ({ h with s64 := put h.s64 i none }, .status true)
  /- xxhash.hh:1368-1373, 1919-1924 -/
  | .updateNull32 _ => .ok (h, .status false)
  | .updateNull64 _ => .ok (h, .status false)

def run (cfg : Cfg) (h : Heap) : List Op → R (Heap × List Obs)
  | [] => .ok (h, [])
  | op :: ops => do
    let (h, o) ← step cfg h op
    let (h, os) ← run cfg h ops
    .ok (h, o :: os)

end Verif.Xxh64
