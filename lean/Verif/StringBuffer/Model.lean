import Verif.StringBuffer.Spec

/-!
# Model of string buffers

source/core/string_buffer.c.  The block of memory behind `buffer` is a list of bytes; copying beyond
its end is undefined behaviour, `none`.  `Mall` says which of the coming `KEFIR_MALLOC` calls succeed
(all after the end of the list do).
-/

namespace Kefir.StringBuffer

open Kefir.Lexer (Codec Dec)

abbrev Mall := List Bool

/-- `KEFIR_MALLOC`. -/
def malloc : Mall → Bool × Mall
  | [] => (true, [])
  | a :: h => (a, h)

/-- headers/kefir/core/string_buffer.h:35-40 `kefir_string_buffer_t`.  `block` is the memory that
`buffer` points to (empty for NULL). -/
structure SB where
  mode : Mode
  block : Bytes
  length : Nat
  capacity : Nat

/-- Outcome of a call: result, buffer and memory afterwards, or undefined behaviour. -/
abbrev Out := Option (Res Unit × SB × Mall)

/-- `REQUIRE_OK(…); …` -/
def andThen (r : Out) (f : SB → Mall → Out) : Out :=
  match r with
  | none => none
  | some (.error e, sb, h) => some (.error e, sb, h)
  | some (.ok (), sb, h) => f sb h

/-- source/core/string_buffer.c:30-42 `kefir_string_buffer_init`. -/
def init (mode : Mode) (h : Mall) : Res Unit × SB × Mall :=
  match malloc h with
  | (false, h) => (.error .memallocFailure, ⟨mode, [], 0, 32⟩, h)
  | (true, h) => (.ok (), ⟨mode, List.replicate 32 0, 0, 32⟩, h)

/-- source/core/string_buffer.c:44-75 `kefir_string_buffer_init_value`; `length` counts code units
including the terminator. -/
def initValue (mode : Mode) (value : Bytes) (length : Nat) : SB :=
  ⟨mode, value, (length - 1) * mode.unit, length * mode.unit⟩

/-- source/core/string_buffer.c:88-113 `kefir_string_buffer_value`: the memory and the number of code
units. -/
def value (sb : SB) : Bytes × Nat := (sb.block, sb.length / sb.mode.unit + 1)

/-- source/core/string_buffer.c:115-132 `ensure_capacity`. -/
def ensureCapacity (sb : SB) (h : Mall) (size : Nat) : Out :=
  if sb.length + size + 1 ≥ sb.capacity then
    let newCapacity := sb.length + size + sb.mode.unit + 64
    match malloc h with
    | (false, h) => some (.error .memallocFailure, sb, h)
    | (true, h) =>
      if sb.length ≤ sb.block.length then
        some (.ok (), { sb with
          block := sb.block.take sb.length ++ List.replicate (newCapacity - sb.length) 0
          capacity := newCapacity }, h)
      else none
  else some (.ok (), sb, h)

/-- source/core/string_buffer.c:134-145 `insert_buffer`. -/
def insertBuffer (sb : SB) (h : Mall) (fragment : Bytes) : Out :=
  if fragment.length = 0 then some (.ok (), sb, h)
  else andThen (ensureCapacity sb h fragment.length) fun sb h =>
    if sb.length + fragment.length ≤ sb.block.length then
      some (.ok (), { sb with
        block := sb.block.take sb.length ++ fragment ++ sb.block.drop (sb.length + fragment.length)
        length := sb.length + fragment.length }, h)
    else none

/-- `mbrtoc16` for a character that is not the null character: the code unit it stores, and the one it
keeps back in its state, if any. -/
def c16units (c : Nat) : Nat × Option Nat :=
  if c < 0x10000 then (c, none)
  else (0xD800 + (c - 0x10000) / 0x400, some (0xDC00 + (c - 0x10000) % 0x400))

/-- source/core/string_buffer.c:202-233, the loop of `kefir_string_buffer_insert_unicode16_character`;
`bs` are the bytes from `begin` to `end`, `pending` is the state of `mbrtoc16`. -/
def u16Loop (cd : Codec) (sb : SB) (h : Mall) (bs : Bytes) (pending : Option Nat) : Out :=
  match bs with
  | [] => some (.ok (), sb, h)
  | x :: r =>
    match pending with
    | some lo => andThen (insertBuffer sb h (leBytes 2 lo)) fun sb h => u16Loop cd sb h (x :: r) none
    | none =>
      match _hd : cd.dec (x :: r) with
      | .bad => some (.error .invalidState, sb, h)
      | .nul => insertBuffer sb h (leBytes 2 0)
      | .chr c n => andThen (insertBuffer sb h (leBytes 2 (c16units c).1)) fun sb h =>
          u16Loop cd sb h ((x :: r).drop n) (c16units c).2
termination_by 2 * bs.length + (if pending.isSome then 1 else 0)
decreasing_by
  · simp
  · have := cd.dec_chr _hd
    simp only [List.length_drop, List.length_cons, Option.isSome_none, Bool.false_eq_true, if_false]
      at this ⊢
    split <;> omega

/-- source/core/string_buffer.c:265-288, the loop of `kefir_string_buffer_insert_wide_character`.
`mbtowc` is taken to decode like `mbrtoc32` (true where `wchar_t` is UTF-32). -/
def wideLoop (cd : Codec) (sb : SB) (h : Mall) (bs : Bytes) : Out :=
  match bs with
  | [] => some (.ok (), sb, h)
  | x :: r =>
    match _hd : cd.dec (x :: r) with
    | .bad => some (.error .invalidState, sb, h)
    | .nul => insertBuffer sb h (leBytes 4 0)
    | .chr c n => andThen (insertBuffer sb h (leBytes 4 c)) fun sb h =>
        wideLoop cd sb h ((x :: r).drop n)
termination_by bs.length
decreasing_by
  have := cd.dec_chr _hd
  simp only [List.length_drop, List.length_cons]
  omega

/-- source/core/string_buffer.c:291-318 `kefir_string_buffer_insert` with the functions for the modes
(155-169, 171-186, 188-234, 236-250, 252-289). -/
def insert (cd : Codec) (sb : SB) (h : Mall) (c : Nat) : Out :=
  match sb.mode with
  | .multibyte | .u8 =>
    match cd.enc c with
    | none => some (.error .invalidState, sb, h)
    | some bs => insertBuffer sb h bs
  | .u16 =>
    match cd.enc c with
    | none => some (.error .invalidState, sb, h)
    | some bs => u16Loop cd sb h bs none
  | .u32 => insertBuffer sb h (leBytes 4 c)
  | .wide =>
    match cd.enc c with
    | none => some (.error .invalidState, sb, h)
    | some bs => wideLoop cd sb h bs

/-- source/core/string_buffer.c:320-365 `kefir_string_buffer_insert_raw`. -/
def insertRaw (sb : SB) (h : Mall) (v : Int) : Out :=
  match sb.mode with
  | .multibyte | .u8 =>
    if v ≤ 255 then insertBuffer sb h (leBytes 1 v) else some (.error .outOfBounds, sb, h)
  | .u16 =>
    if v ≤ 65535 then insertBuffer sb h (leBytes 2 v) else some (.error .outOfBounds, sb, h)
  | .u32 =>
    if v ≤ 4294967295 then insertBuffer sb h (leBytes 4 v) else some (.error .outOfBounds, sb, h)
  | .wide =>
    if v ≤ 2147483647 then insertBuffer sb h (leBytes 4 v) else some (.error .outOfBounds, sb, h)

/-- source/core/string_buffer.c:367-390 `insert_multibyte`; `bs` are the bytes from `begin` to
`end`. -/
def insertMultibyte (cd : Codec) (sb : SB) (h : Mall) (bs : Bytes) : Out :=
  match bs with
  | [] => some (.ok (), sb, h)
  | x :: r =>
    match _hd : cd.dec (x :: r) with
    | .bad => some (.error .invalidState, sb, h)
    | .nul => andThen (insert cd sb h 0) fun sb h => insertMultibyte cd sb h r
    | .chr c n => andThen (insert cd sb h c) fun sb h => insertMultibyte cd sb h ((x :: r).drop n)
termination_by bs.length
decreasing_by
  · simp
  · have := cd.dec_chr _hd
    simp only [List.length_drop, List.length_cons]
    omega

/-- source/core/string_buffer.c:392-429 `kefir_string_buffer_convert`. -/
def convert (cd : Codec) (sb : SB) (h : Mall) (newMode : Mode) : Out :=
  if sb.mode = .multibyte then
    match newMode with
    | .multibyte => some (.ok (), sb, h)
    | .u8 => some (.ok (), { sb with mode := .u8 }, h)
    | m =>
      if sb.length ≤ sb.block.length then
        andThen (some (init m h)) fun nb h => insertMultibyte cd nb h (sb.block.take sb.length)
      else none
  else some (.error .invalidParameter, sb, h)

/-- One append. -/
def append (cd : Codec) (sb : SB) (h : Mall) : Item → Out
  | .char c => insert cd sb h c
  | .raw v => insertRaw sb h v

/-- A sequence of appends; a failing one does not stop the sequence. -/
def appendAll (cd : Codec) : SB → Mall → List Item → Option (List (Res Unit) × SB × Mall)
  | sb, h, [] => some ([], sb, h)
  | sb, h, it :: its => do
    let (r, sb, h) ← append cd sb h it
    let (rs, sb, h) ← appendAll cd sb h its
    return (r :: rs, sb, h)

/-- The `i`-th code unit of `k` bytes, read as an unsigned little-endian number. -/
def unitAt (bs : Bytes) (k i : Nat) : Nat :=
  ((bs.drop (k * i)).take k).foldr (fun b a => b.toNat + 256 * a) 0

/-- source/core/string_buffer.c:467-469, the loop over the characters of a unicode32 source. -/
def merge32Loop (cd : Codec) (sb : SB) (h : Mall) (src : Bytes) : Nat → Nat → Out
  | _, 0 => some (.ok (), sb, h)
  | i, n + 1 => andThen (insert cd sb h (unitAt src 4 i)) fun sb h =>
      merge32Loop cd sb h src (i + 1) n

/-- source/core/string_buffer.c:473-486, the loop over the characters of a wide source.  `wcrtomb` is
taken to encode like `c32rtomb`. -/
def mergeWideLoop (cd : Codec) (sb : SB) (h : Mall) (src : Bytes) : Nat → Nat → Out
  | _, 0 => some (.ok (), sb, h)
  | i, n + 1 =>
    match cd.enc (unitAt src 4 i) with
    | none => some (.error .invalidState, sb, h)
    | some bs => andThen (insertMultibyte cd sb h bs) fun sb h =>
        mergeWideLoop cd sb h src (i + 1) n

/-- source/core/string_buffer.c:431-490 `kefir_string_buffer_merge` for sources other than unicode16
(whose case, 444-463, is not modelled: the conversion state of `c16rtomb`). -/
def merge (cd : Codec) (dst : SB) (h : Mall) (src : SB) : Out :=
  match src.mode with
  | .multibyte | .u8 => insertMultibyte cd dst h (src.block.take src.length)
  | .u16 => none
  | .u32 => merge32Loop cd dst h src.block 0 (src.length / 4)
  | .wide => mergeWideLoop cd dst h src.block 0 (src.length / 4)

end Kefir.StringBuffer
