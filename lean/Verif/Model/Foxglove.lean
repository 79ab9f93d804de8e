import Verif.Model.Wasm

/-!
# The Foxglove converter (`cloudini_foxglove/src/PointCloudConverter.tsx`)

The extension gets the members of a `CompressedPointCloud2` message as JavaScript numbers, copies the compressed data into the WebAssembly memory, calls
`cldn_DecodeCompressedData` and copies the result out.  The memory is modelled by its allocator: `_malloc` is any function that answers a request with
nothing (address 0), or with an address and what the block happens to contain.  Writing past the end of a block is `ub .mem`.  The messages on the
console are left out; an `Error` is `throw` with its text (without the prefix).
-/

namespace Cloudini.Foxglove

/-- Schemas.tsx:24-36 `CompressedPointCloud`, as far as it is read.  `fields` is handed through unread, whatever it is. -/
structure Compressed (α : Type) where
  frame : List Byte := []
  sec : BitVec 32 := 0
  nsec : BitVec 32 := 0
  height : BitVec 32 := 1
  width : BitVec 32 := 0
  fields : α
  bigendian : Bool := false
  point_step : BitVec 32 := 0
  dense : Bool := true
  data : List Byte := []

/-- Schemas.tsx:38-48 `PointCloud`.  `row_step` is a JavaScript number, not reduced to 32 bits. -/
structure PointCloud (α : Type) where
  frame : List Byte
  sec : BitVec 32
  nsec : BitVec 32
  height : BitVec 32
  width : BitVec 32
  fields : α
  bigendian : Bool
  point_step : BitVec 32
  row_step : Nat
  dense : Bool
  data : List Byte

/-- The WebAssembly memory: its size (`HEAPU8.length`) and the addresses of the blocks in use. -/
structure Heap where
  size : Nat
  live : List Nat
  deriving DecidableEq

/-- `_malloc`: nothing (the address 0), or an address, the bytes found there, and the size of the memory afterwards (it may grow). -/
abbrev Malloc := Heap → Nat → Option (Nat × List Byte × Nat)

/-- What every allocator guarantees: an address nobody uses, and as many bytes as asked for. -/
structure Malloc.Lawful (M : Malloc) : Prop where
  fresh : ∀ h n a b s, M h n = some (a, b, s) → a ∉ h.live
  size : ∀ h n a b s, M h n = some (a, b, s) → b.length = n

/-- `_malloc` as a step: the heap afterwards. -/
def Heap.take (h : Heap) (a s : Nat) : Heap := ⟨s, a :: h.live⟩

/-- `_free`. -/
def Heap.free (h : Heap) (a : Nat) : Heap := ⟨h.size, h.live.erase a⟩

/-- PointCloudConverter.tsx:24-37: the message before the data are filled in. -/
def shell {α : Type} (c : Compressed α) : PointCloud α :=
  { frame := c.frame, sec := c.sec, nsec := c.nsec, height := c.height, width := c.width, fields := c.fields, bigendian := false,
    point_step := c.point_step, row_step := c.point_step.toNat * c.width.toNat, dense := c.dense, data := [] }

/-- PointCloudConverter.tsx:76-88: what becomes of the number `_cldn_DecodeCompressedData` returned and of the block it wrote to.  The function returns a
`uint32_t`, which JavaScript sees as a signed number: from `2 ^ 31` on the length of the array is negative, a `RangeError`. -/
def collect {α : Type} (c : Compressed α) (block : List Byte) (o : Wasm.Out) : Res (PointCloud α) :=
  if o.ret = 0 then .throw "Decompression failed - function returned 0"
  else if 2 ^ 31 ≤ o.ret then .throw "RangeError"
  else .ok { shell c with data := ((o.bytes.getD []) ++ block.drop (o.bytes.getD []).length).take o.ret }

/-- PointCloudConverter.tsx:18-101 `convertPointCloudWasm`; `loaded` says whether the module has been loaded.  `_malloc` takes its argument modulo
`2 ^ 32`.  Simplified: the size is the exact product (a double rounds from `2 ^ 53` on). -/
def convert {α : Type} (T : FloatText) (F : FloatOps) (C : Compressor) (fuel : Nat) (M : Malloc) (loaded : Bool) (h : Heap) (c : Compressed α) :
    Heap × Res (PointCloud α) :=
  if loaded = false then (h, .throw "Cloudini WASM module is still loading. Please try again.")
  else if c.width.toNat * c.height.toNat = 0 then (h, .ok (shell c))
  else if h.size < 4 * c.data.length then (h, .throw "Message too large")
  else match M h c.data.length with
    | none => (h, .throw "Failed to allocate memory for input data")
    | some (p, _, s) =>
      let h1 := h.take p s
      match M h1 (c.height.toNat * c.width.toNat * c.point_step.toNat % 2 ^ 32) with
      | none => (h1.free p, .throw "Failed to allocate memory for output data")
      | some (q, block, s2) =>
        let h2 := h1.take q s2
        match Wasm.decodeData T F C fuel c.data block with
        | .ub k => (h2, .ub k)
        | .throw m => ((h2.free p).free q, .throw m)
        | .ok o => ((h2.free p).free q, collect c block o)

end Cloudini.Foxglove
