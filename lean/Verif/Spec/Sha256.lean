import Verif.Basic

/-!
# SHA-256

The theorems hold for every hash function (class `SHA`). Here is the one the code uses, so that the model can be run on the test
vectors of the repository (`Verif/Conformance`). Words are natural numbers below `2 ^ 32`.
-/

namespace Verif.Sha256

/-- Evaluates `n` before `f` is called. -/
@[inline] def strict {α : Type} (n : Nat) (f : Nat → α) : α :=
  match n with
  | 0 => f 0
  | m + 1 => f (m + 1)

def rotr (x n : Nat) : Nat := (x >>> n) ||| ((x <<< (32 - n)) % 4294967296)

def bigSigma0 (x : Nat) : Nat := rotr x 2 ^^^ rotr x 13 ^^^ rotr x 22
def bigSigma1 (x : Nat) : Nat := rotr x 6 ^^^ rotr x 11 ^^^ rotr x 25
def smallSigma0 (x : Nat) : Nat := rotr x 7 ^^^ rotr x 18 ^^^ (x >>> 3)
def smallSigma1 (x : Nat) : Nat := rotr x 17 ^^^ rotr x 19 ^^^ (x >>> 10)
def ch (x y z : Nat) : Nat := (x &&& y) ^^^ ((x ^^^ 0xFFFFFFFF) &&& z)
def maj (x y z : Nat) : Nat := (x &&& y) ^^^ (x &&& z) ^^^ (y &&& z)

def constants : List Nat :=
  [0x428a2f98, 0x71374491, 0xb5c0fbcf, 0xe9b5dba5, 0x3956c25b, 0x59f111f1, 0x923f82a4, 0xab1c5ed5,
   0xd807aa98, 0x12835b01, 0x243185be, 0x550c7dc3, 0x72be5d74, 0x80deb1fe, 0x9bdc06a7, 0xc19bf174,
   0xe49b69c1, 0xefbe4786, 0x0fc19dc6, 0x240ca1cc, 0x2de92c6f, 0x4a7484aa, 0x5cb0a9dc, 0x76f988da,
   0x983e5152, 0xa831c66d, 0xb00327c8, 0xbf597fc7, 0xc6e00bf3, 0xd5a79147, 0x06ca6351, 0x14292967,
   0x27b70a85, 0x2e1b2138, 0x4d2c6dfc, 0x53380d13, 0x650a7354, 0x766a0abb, 0x81c2c92e, 0x92722c85,
   0xa2bfe8a1, 0xa81a664b, 0xc24b8b70, 0xc76c51a3, 0xd192e819, 0xd6990624, 0xf40e3585, 0x106aa070,
   0x19a4c116, 0x1e376c08, 0x2748774c, 0x34b0bcb5, 0x391c0cb3, 0x4ed8aa4a, 0x5b9cca4f, 0x682e6ff3,
   0x748f82ee, 0x78a5636f, 0x84c87814, 0x8cc70208, 0x90befffa, 0xa4506ceb, 0xbef9a3f7, 0xc67178f2]

structure State where
  a : Nat
  b : Nat
  c : Nat
  d : Nat
  e : Nat
  f : Nat
  g : Nat
  h : Nat

def initial : State :=
  ⟨0x6a09e667, 0xbb67ae85, 0x3c6ef372, 0xa54ff53a, 0x510e527f, 0x9b05688c, 0x1f83d9ab, 0x5be0cd19⟩

/-- One word of the message schedule is used in each round; the next sixteen words are kept. -/
def rounds : List Nat → List Nat → State → State
  | k :: ks, w :: ws, s =>
    strict (s.h + bigSigma1 s.e + ch s.e s.f s.g + k + w) fun t1 =>
    strict ((s.d + t1) % 4294967296) fun e =>
    strict ((t1 + (bigSigma0 s.a + maj s.a s.b s.c)) % 4294967296) fun a =>
    strict ((smallSigma1 (ws.getD 13 0) + ws.getD 8 0 + smallSigma0 (ws.getD 0 0) + w) % 4294967296) fun w' =>
    rounds ks (ws ++ [w']) ⟨a, s.a, s.b, s.c, e, s.e, s.f, s.g⟩
  | _, _, s => s

def plus (s t : State) : State :=
  strict ((s.a + t.a) % 4294967296) fun a => strict ((s.b + t.b) % 4294967296) fun b =>
  strict ((s.c + t.c) % 4294967296) fun c => strict ((s.d + t.d) % 4294967296) fun d =>
  strict ((s.e + t.e) % 4294967296) fun e => strict ((s.f + t.f) % 4294967296) fun f =>
  strict ((s.g + t.g) % 4294967296) fun g => strict ((s.h + t.h) % 4294967296) fun h => ⟨a, b, c, d, e, f, g, h⟩

/-- The words of the message. -/
def words : Bytes → List Nat
  | a :: b :: c :: d :: r => strict (a.toNat * 16777216 + b.toNat * 65536 + c.toNat * 256 + d.toNat) fun w => w :: words r
  | _ => []

/-- Sixteen words at a time; `n` is the number of blocks. -/
def blocks : Nat → List Nat → State → State
  | 0, _, s => s
  | n + 1, ws, s => blocks n (ws.drop 16) (plus s (rounds constants (ws.take 16) s))

def be (n : Nat) (x : Nat) : Bytes := (List.range n).reverse.map (fun i => (x / 256 ^ i % 256).toUInt8)

def pad (m : Bytes) : Bytes :=
  m ++ 0x80 :: List.replicate ((119 - m.length % 64) % 64) 0 ++ be 8 (m.length * 8)

def word (x : Nat) : Bytes := [(x / 16777216 % 256).toUInt8, (x / 65536 % 256).toUInt8, (x / 256 % 256).toUInt8, (x % 256).toUInt8]

def out (s : State) : Hash :=
  ⟨word s.a ++ word s.b ++ word s.c ++ word s.d ++ word s.e ++ word s.f ++ word s.g ++ word s.h, rfl⟩

def digest (m : Bytes) : Hash :=
  let p := pad m
  out (blocks (p.length / 64) (words p) initial)

end Verif.Sha256

namespace Verif
/-- SHA-256 as the hash function. -/
@[instance_reducible] def realSHA : SHA := ⟨Sha256.digest⟩
end Verif
