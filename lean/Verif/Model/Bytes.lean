/-!
# Flat byte memory

Go's `unsafe.Pointer` blocks (`make([]byte, n)`, mmapped files) are modelled as a size together
with a total function from addresses (relative to the block's first byte) to bytes.  Whether an
access is inside the block is checked where a node is mapped onto the memory
(`Verif.Model.Index.getNode`).
-/
namespace Annoy

/-- The ways a call can fail to return.

* `panic` – a Go `panic` (explicit, nil dereference, slice index, division by zero);
* `oob` – an access outside the memory block through `unsafe` (segfault or silent corruption);
* `diverge` – the call did not finish within the fuel given to the model. -/
inductive Err where
  | panic (msg : String)
  | oob
  | diverge
deriving Repr, DecidableEq

abbrev Byte := UInt8

/-- Content of a block: address ↦ byte. -/
structure Bytes where
  at' : Nat → Byte

instance : CoeFun Bytes (fun _ => Nat → Byte) := ⟨Bytes.at'⟩

@[ext] theorem Bytes.ext' {b b' : Bytes} (h : ∀ x, b x = b' x) : b = b' := by
  cases b; cases b'; simp only [Bytes.mk.injEq]; exact funext h

/-- Fresh memory.  Models `make([]byte, n)`: index/memory/gc_index_build_allocator.go:32,
index/annoyindex.go:356, distance/angular/distance.go:145-146 (Go zeroes new memory). -/
def zeros : Bytes := ⟨fun _ => 0⟩

/-- The `k` little-endian bytes of `n` (amd64/arm64 representation of `uint32`/`uint64` and of the
bit pattern of `float32`/`float64`).  Higher bits are cut off, as in a Go conversion. -/
def leBytes : Nat → Nat → List Byte
  | 0, _ => []
  | k + 1, n => UInt8.ofNat (n % 256) :: leBytes k (n / 256)

/-- Value of a little-endian byte string. -/
def ofLE : List Byte → Nat
  | [] => 0
  | b :: bs => b.toNat + 256 * ofLE bs

/-- The `k` bytes starting at address `a`. -/
def readBytes (b : Bytes) (a k : Nat) : List Byte :=
  (List.range k).map fun j => b (a + j)

/-- Overwrite the bytes from address `a` on with `l`. -/
def writeBytes (b : Bytes) (a : Nat) (l : List Byte) : Bytes :=
  ⟨fun x => if a ≤ x ∧ x < a + l.length then l.getD (x - a) 0 else b x⟩

/-- Read a `k`-byte little-endian word. -/
def readLE (b : Bytes) (a k : Nat) : Nat := ofLE (readBytes b a k)

/-- Write a `k`-byte little-endian word. -/
def writeLE (b : Bytes) (a k n : Nat) : Bytes := writeBytes b a (leBytes k n)

/-- A memory block: its size in bytes and its content. -/
structure Block where
  size : Nat
  get : Bytes

/-- The bytes of a block as a list (what `file.Write` writes, index/annoyindex_io.go:31-33). -/
def Block.prefix (b : Block) (n : Nat) : List Byte := readBytes b.get 0 n

/-- A block holding the bytes of a list (a file read or mapped into memory). -/
def Block.ofList (l : List Byte) : Block := ⟨l.length, ⟨fun a => l.getD a 0⟩⟩

end Annoy
