import Verif.Lexer.Cursor

/-!
# Specification of string buffers

What a string buffer holds, in terms of the characters put into it.  Independent of the model.
-/

namespace Kefir.StringBuffer

open Kefir.Lexer (Codec Dec)

abbrev Bytes := List UInt8

/-- headers/kefir/core/string_buffer.h:27-33: the modes of a buffer. -/
inductive Mode where
  | multibyte
  | u8
  | u16
  | u32
  | wide
  deriving DecidableEq, Repr

/-- Size of a code unit (`char`, `char16_t`, `char32_t`, `wchar_t` on x86-64 Linux). -/
def Mode.unit : Mode → Nat
  | .multibyte => 1
  | .u8 => 1
  | .u16 => 2
  | .u32 => 4
  | .wide => 4

/-- The little-endian bytes of an integer. -/
def leBytes : Nat → Int → Bytes
  | 0, _ => []
  | k + 1, n => UInt8.ofNat (n % 256).toNat :: leBytes k (n / 256)

/-- UTF-16 code units of a character. -/
def utf16 (c : Nat) : List Nat :=
  if c < 0x10000 then [c] else [0xD800 + (c - 0x10000) / 0x400, 0xDC00 + (c - 0x10000) % 0x400]

/-- The encoding of a character in a mode.  `none`: the character cannot be represented in the
locale. -/
def encodeChar (cd : Codec) : Mode → Nat → Option Bytes
  | .multibyte, c => cd.enc c
  | .u8, c => cd.enc c
  | .u16, c => (cd.enc c).map fun _ => (utf16 c).flatMap fun (u : Nat) => leBytes 2 u
  | .u32, c => some (leBytes 4 c)
  | .wide, c => (cd.enc c).map fun _ => leBytes 4 c

/-- The encoding of a text in a mode. -/
def encodeText (cd : Codec) (m : Mode) : List Nat → Option Bytes
  | [] => some []
  | c :: cs =>
    match encodeChar cd m c, encodeText cd m cs with
    | some e, some r => some (e ++ r)
    | _, _ => none

/-- Largest value that a numeric escape may have in a mode. -/
def Mode.maxRaw : Mode → Int
  | .multibyte => 2 ^ 8 - 1
  | .u8 => 2 ^ 8 - 1
  | .u16 => 2 ^ 16 - 1
  | .u32 => 2 ^ 32 - 1
  | .wide => 2 ^ 31 - 1

/-- The things one can append. -/
inductive Item where
  | char (c : Nat)
  | raw (v : Int)

/-- The bytes an item contributes, or `none` if it must be rejected. -/
def encode (cd : Codec) (m : Mode) : Item → Option Bytes
  | .char c => encodeChar cd m c
  | .raw v => if v ≤ m.maxRaw then some (leBytes m.unit v) else none

/-- The conversion functions of the C library fit together: encoding a character and decoding the
bytes gives the character back, and the null character is one zero byte. -/
structure RoundTrip (cd : Codec) : Prop where
  nul_enc : cd.enc 0 = some [0]
  nul_dec : ∀ r, cd.dec (0 :: r) = .nul
  enc_dec : ∀ {c bs}, c ≠ 0 → cd.enc c = some bs → ∀ r, cd.dec (bs ++ r) = .chr c bs.length

/-- How one append may come out: it is done; or memory is exhausted and nothing is stored; or the
item cannot be represented and nothing is stored. -/
def Allowed (cd : Codec) (m : Mode) (it : Item) (reply : Res Unit) (before after : Bytes) : Prop :=
  (∃ e, encode cd m it = some e ∧ reply = .ok () ∧ after = before ++ e) ∨
  (reply = .error .memallocFailure ∧ after = before) ∨
  (encode cd m it = none ∧ (reply = .error .invalidState ∨ reply = .error .outOfBounds) ∧
    after = before)

/-- The same for a sequence of appends. -/
inductive AllowedSeq (cd : Codec) (m : Mode) : List Item → List (Res Unit) → Bytes → Bytes → Prop
  | nil {b} : AllowedSeq cd m [] [] b b
  | cons {it its r rs b b' b''} : Allowed cd m it r b b' → AllowedSeq cd m its rs b' b'' →
      AllowedSeq cd m (it :: its) (r :: rs) b b''

end Kefir.StringBuffer
