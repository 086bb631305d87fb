import Verif.Persist.Model
/-! # What the stream of a saved cache looks like, and what the parameters must satisfy -/

namespace Verif.Persist

/-- The encodings round-trip, headers have one length, a checksum fits in 32 bits. -/
structure Fmt.Ok (f : Fmt) (headerLen : Nat) : Prop where
  B_two : 2 ≤ f.B
  B_lt : f.B < 2 ^ 32
  crc_lt : ∀ d, f.crc d < 2 ^ 32
  header_len : ∀ k n, (f.encHeader k n).length = headerLen
  len_lt : headerLen < 2 ^ 64
  header : ∀ k n, n < 2 ^ 63 → f.decHeader (f.encHeader k n) = some (k, n)
  versions : ∀ v, f.decVersions (f.encVersions v) = some v
  config : ∀ c, f.decConfig (f.encConfig c) = some c

/-- The encodings of the versions and of the name have a length that the header can hold. -/
structure Mgr.Ok (m : Mgr) (f : Fmt) : Prop where
  versions_lt : (f.encVersions m.versions).length < 2 ^ 63
  config_lt : (f.encConfig m.name).length < 2 ^ 63

namespace Spec

/-- The number in `l`, least significant byte first. -/
def Number (l : List Byte) (n : Nat) : Prop :=
  n = (l.mapIdx fun i b => b.toNat * 256 ^ i).sum

/-- `bytes` are `n` blocks that hold `data`: each has a 4-byte checksum of its piece, the 4-byte length of the piece,
the piece and padding up to the block size; only the last pieces are shorter than a block. -/
inductive Blocks (f : Fmt) : Nat → List Byte → List Byte → Prop
  | nil : Blocks f 0 [] []
  | cons {n d rest c l pad bs} : d.length ≤ f.B → (d.length < f.B → rest = []) →
      c.length = 4 → Number c (f.crc d) → l.length = 4 → Number l d.length → pad.length = f.B - d.length →
      Blocks f n rest bs → Blocks f (n + 1) (d ++ rest) (c ++ (l ++ (d ++ (pad ++ bs))))

/-- `n` blocks of which the first ones are good, and then comes one whose piece does not have the checksum that is
written before it; what follows is arbitrary. -/
inductive Damaged (f : Fmt) : Nat → List Byte → Prop
  | here {n d c l pad x bs} : d.length ≤ f.B → c.length = 4 → Number c x → x ≠ f.crc d → l.length = 4 →
      Number l d.length → pad.length = f.B - d.length → Damaged f (n + 1) (c ++ (l ++ (d ++ (pad ++ bs))))
  | later {n d c l pad bs} : d.length ≤ f.B → c.length = 4 → Number c (f.crc d) → l.length = 4 →
      Number l d.length → pad.length = f.B - d.length → Damaged f n bs →
      Damaged f (n + 1) (c ++ (l ++ (d ++ (pad ++ bs))))

/-- The number of blocks for `size` bytes. -/
def blocksFor (size B : Nat) : Nat := (size + (B - 1)) / B

/-- What `saveCache` is given: contents of the state file, of the segments and of the Navy files. -/
structure Image where
  stateFile : List Byte
  seg : Seg → List Byte
  navy : List (List Byte)

/-- The host has this image. -/
def Image.On (i : Image) (m : Mgr) (h : Host) : Prop :=
  h.stateFile = some i.stateFile ∧ (∀ s, h.segs s = some (i.seg s)) ∧ i.navy.length = m.numNavyFiles ∧
    ∀ k, k < m.numNavyFiles → h.navy k = i.navy[k]?

/-- The parts of a stream before the segments. -/
def front (f : Fmt) (m : Mgr) (len8 stateFile : List Byte) : List Byte :=
  28 :: (len8 ++ (f.encHeader .versions (f.encVersions m.versions).length ++ (f.encVersions m.versions ++
    (30 :: (f.encHeader .configs (f.encConfig m.name).length ++ (f.encConfig m.name ++
      (30 :: (f.encHeader .nvmCacheState stateFile.length ++ stateFile))))))))

/-- The whole stream: `body s` are the blocks of segment `s`, `navy` those of all Navy files. -/
def stream (f : Fmt) (m : Mgr) (len8 : List Byte) (i : Image) (body : Seg → List Byte) (navy : List Byte) : List Byte :=
  front f m len8 i.stateFile ++
    (30 :: (f.encHeader .shmInfo (i.seg .info).length ++ (body .info ++
      (30 :: (f.encHeader .shmHT (i.seg .hashTable).length ++ (body .hashTable ++
        (30 :: (f.encHeader .shmChainedItemHT (i.seg .chainedItemHashTable).length ++ (body .chainedItemHashTable ++
          (30 :: (f.encHeader .shmData (i.seg .cache).length ++ (body .cache ++
            (30 :: (f.encHeader .navyPartition m.navyFileSize ++ (navy ++ [31])))))))))))))))

/-- `bytes` are the blocks of the files one after the other, `n` for each; what is in a file after `n` blocks is left
out. -/
inductive NavyBlocks (f : Fmt) (n : Nat) : List (List Byte) → List Byte → Prop
  | nil : NavyBlocks f n [] []
  | cons {d ds b bs} : Blocks f n (d.take (n * f.B)) b → NavyBlocks f n ds bs → NavyBlocks f n (d :: ds) (b ++ bs)

end Spec
end Verif.Persist
