import Verif.C.Mem

/-!
# ChaCha20 as in RFC 8439

Written from the RFC, on a list of 16 words.
-/

namespace IMU.Spec

/-- RFC 8439, 2.1: the quarter round on four numbers. -/
def rfcQuarterRound (a b c d : U32) : U32 × U32 × U32 × U32 :=
  let a := a + b; let d := d ^^^ a; let d := d.rotateLeft 16
  let c := c + d; let b := b ^^^ c; let b := b.rotateLeft 12
  let a := a + b; let d := d ^^^ a; let d := d.rotateLeft 8
  let c := c + d; let b := b ^^^ c; let b := b.rotateLeft 7
  (a, b, c, d)

/-- RFC 8439, 2.2: `QUARTERROUND(i, j, k, l)` on the state. -/
def rfcQuarter (s : List U32) (i j k l : Nat) : List U32 :=
  match rfcQuarterRound (s.getD i 0) (s.getD j 0) (s.getD k 0) (s.getD l 0) with
  | (a, b, c, d) => (((s.set i a).set j b).set k c).set l d

/-- RFC 8439, 2.3: one column round and one diagonal round. -/
def rfcInnerBlock (s : List U32) : List U32 :=
  [(0, 4, 8, 12), (1, 5, 9, 13), (2, 6, 10, 14), (3, 7, 11, 15),
   (0, 5, 10, 15), (1, 6, 11, 12), (2, 7, 8, 13), (3, 4, 9, 14)].foldl
    (fun s q => rfcQuarter s q.1 q.2.1 q.2.2.1 q.2.2.2) s

/-- The little-endian 32-bit integer at byte `4 * k`. -/
def leWord (l : List Byte) (k : Nat) : U32 :=
  BitVec.ofNat 32 ((l.getD (4 * k) 0).toNat + 256 * (l.getD (4 * k + 1) 0).toNat +
    65536 * (l.getD (4 * k + 2) 0).toNat + 16777216 * (l.getD (4 * k + 3) 0).toNat)

/-- The four bytes of a 32-bit integer, little-endian. -/
def leBytes (w : U32) : List Byte :=
  [BitVec.ofNat 8 w.toNat, BitVec.ofNat 8 (w.toNat / 256), BitVec.ofNat 8 (w.toNat / 65536),
   BitVec.ofNat 8 (w.toNat / 16777216)]

/-- The ASCII bytes of "expand 32-byte k". -/
def rfcConstant : List Byte :=
  "expand 32-byte k".toList.map (fun c => BitVec.ofNat 8 c.toNat)

/-- RFC 8439, 2.3: the initial state. -/
def rfcState (key : List Byte) (counter : U32) (nonce : List Byte) : List U32 :=
  (List.range 4).map (leWord rfcConstant) ++ (List.range 8).map (leWord key) ++ [counter] ++
    (List.range 3).map (leWord nonce)

/-- RFC 8439, 2.3: the block function; 64 bytes. -/
def rfcBlock (key : List Byte) (counter : U32) (nonce : List Byte) : List Byte :=
  let state := rfcState key counter nonce
  let working := Nat.repeat rfcInnerBlock 10 state
  (List.zipWith (· + ·) state working).flatMap leBytes

/-- RFC 8439, 2.4: byte `i` of the key stream that starts with block `counter`; the counter is a 32-bit
number. -/
def keyStream (key : List Byte) (counter : U32) (nonce : List Byte) (i : Nat) : Byte :=
  (rfcBlock key (counter + BitVec.ofNat 32 (i / 64)) nonce).getD (i % 64) 0

/-- RFC 8439, 2.4: encryption and decryption. -/
def chacha20 (key : List Byte) (counter : U32) (nonce : List Byte) (msg : List Byte) : List Byte :=
  msg.mapIdx (fun i b => b ^^^ keyStream key counter nonce i)

end IMU.Spec
