/-! # Piecewise caching (cachelib/common/piecewise)

`GenericPiecesBase`, `GenericPieces` and `RequestRange`.  Numbers are `uint64_t`: products and differences are taken
modulo 2^64 as in the code.  Strings are lists of characters. -/

namespace Verif.Pieces

/-- A value stored in a `uint64_t`. -/
def u64 (x : Nat) : Nat := x % 18446744073709551616

/-- `a - b` of two `uint64_t`. -/
def sub64 (a b : Nat) : Nat := (18446744073709551616 + a - b) % 18446744073709551616

/-- RequestRange.h:34, 48: a range with an optional last byte, or none. -/
abbrev RequestRange := Option (Nat × Option Nat)

/-- RequestRange.cpp:26-37 -/
def RequestRange.mk (rangeStart rangeEnd : Option Nat) : RequestRange :=
  match rangeStart with
  | none => none
  | some a =>
    match rangeEnd with
    | none => some (a, none)
    | some b => if b < a then none else some (a, some b)

/-- GenericPiecesBase.h:160-169 and GenericPieces.h:99-101 (without the key, which the functions below do not use). -/
structure Pieces where
  pieceSize : Nat
  numPiecesPerGroup : Nat
  fullBodyLen : Nat
  curFetchingPieceIndex : Nat
  numPiecesTotal : Nat
  startPieceIndex : Nat
  endPieceIndex : Nat
  deriving DecidableEq

/-- GenericPiecesBase.h:154-157 -/
def calculateNumPiecesTotal (fullBodyLen pieceSize : Nat) : Nat := u64 (sub64 fullBodyLen 1 / pieceSize + 1)

/-- GenericPieces.cpp:37-52 `resetFromRequestRange`; `none` is a failed `XCHECK_GE` (the process aborts). -/
def resetFromRequestRange (p : Pieces) (range : RequestRange) : Option Pieces :=
  let p1 : Pieces :=
    match range with
    | none => p
    | some (first, second) =>
      let p0 : Pieces := { p with startPieceIndex := first / p.pieceSize }
      match second with
      | none => p0
      | some requestedEndByte =>
        if requestedEndByte < p.fullBodyLen then { p0 with endPieceIndex := requestedEndByte / p.pieceSize } else p0
  if p1.endPieceIndex ≥ p1.startPieceIndex then
    some { p1 with curFetchingPieceIndex := p1.startPieceIndex }
  else none

/-- GenericPiecesBase.cpp:31-41 and GenericPieces.cpp:24-35; `none`: `XCHECK(fullBodyLen > 0)`, a division by zero or the
check of `resetFromRequestRange`.  A null `range` is `none` (the fetch index is then 0 by GenericPiecesBase.h:165). -/
def new (pieceSize piecesPerGroup fullBodyLen : Nat) (range : Option RequestRange) : Option Pieces :=
  if 0 < fullBodyLen ∧ 0 < pieceSize then
    let n := calculateNumPiecesTotal fullBodyLen pieceSize
    let p : Pieces := ⟨pieceSize, piecesPerGroup, fullBodyLen, 0, n, 0, sub64 n 1⟩
    match range with
    | none => some p
    | some r => resetFromRequestRange p r
  else none

/-- GenericPieces.h:59-61 -/
def getTargetNumPieces (p : Pieces) : Nat := u64 (sub64 p.endPieceIndex p.startPieceIndex + 1)
/-- GenericPieces.h:63-65 -/
def getNumFetchedPieces (p : Pieces) : Nat := sub64 p.curFetchingPieceIndex p.startPieceIndex
/-- GenericPieces.h:67 -/
def updateFetchIndex (p : Pieces) : Pieces := { p with curFetchingPieceIndex := u64 (p.curFetchingPieceIndex + 1) }
/-- GenericPieces.h:76-78 -/
def setFetchIndex (p : Pieces) (i : Nat) : Pieces := { p with curFetchingPieceIndex := i }

/-- GenericPiecesBase.h:92-94 -/
def morePiecesToFetch (p : Pieces) : Bool := decide (p.curFetchingPieceIndex < p.endPieceIndex)
/-- GenericPiecesBase.h:96-98 -/
def getFirstByteOffsetOfCurPiece (p : Pieces) : Nat := u64 (p.curFetchingPieceIndex * p.pieceSize)
/-- GenericPiecesBase.h:100-103 -/
def getLastByteOffsetOfLastPiece (p : Pieces) : Nat :=
  min (sub64 (u64 (u64 (p.endPieceIndex + 1) * p.pieceSize)) 1) (sub64 p.fullBodyLen 1)
/-- GenericPiecesBase.h:105-112 -/
def getSizeOfAPiece (p : Pieces) (pieceIndex : Nat) : Nat :=
  if pieceIndex < p.endPieceIndex then p.pieceSize
  else u64 (getLastByteOffsetOfLastPiece p % p.pieceSize + 1)
/-- GenericPiecesBase.h:114-116 -/
def getFirstByteOffsetToFetch (p : Pieces) : Nat := u64 (p.startPieceIndex * p.pieceSize)
/-- GenericPieces.h:80-85 -/
def getRemainingBytes (p : Pieces) : Nat :=
  if p.curFetchingPieceIndex > p.endPieceIndex then 0
  else u64 (sub64 (getLastByteOffsetOfLastPiece p) (getFirstByteOffsetOfCurPiece p) + 1)
/-- GenericPieces.h:87-89 -/
def isPieceWithinBound (p : Pieces) (pieceIndex : Nat) : Bool := decide (pieceIndex ≤ p.endPieceIndex)
/-- GenericPieces.h:92-95 -/
def getTotalSize (p : Pieces) : Nat :=
  u64 (sub64 (getLastByteOffsetOfLastPiece p) (u64 (p.startPieceIndex * p.pieceSize)) + 1)

/-! ## Keys -/

abbrev Str := List Char

/-- GenericPiecesBase.cpp:28 -/
def kCacheGroupSeparator : Str := ['|', '@', '|']
/-- GenericPiecesBase.cpp:29 -/
def kCachePieceSeparator : Str := ['|', '#', '|']

/-- `folly::split(kCachePieceSeparator, key, parts)`: from the left, without overlaps, empty parts kept. -/
def split : Str → List Str
  | '|' :: '#' :: '|' :: rest => [] :: split rest
  | c :: rest =>
    match split rest with
    | [] => [[c]]
    | p :: ps => (c :: p) :: ps
  | [] => [[]]

/-- `folly::join(sep, parts, ret)`. -/
def join (sep : Str) : List Str → Str
  | [] => []
  | [p] => p
  | p :: ps => p ++ (sep ++ join sep ps)

/-- GenericPiecesBase.cpp:43-55 -/
def escapeCacheKey (key : Str) : Str :=
  let parts := split key
  if parts.length = 1 then key
  else join (kCachePieceSeparator ++ kCachePieceSeparator) parts

/-- A decimal digit. -/
def digit (d : Nat) : Char := Char.ofNat (48 + d)

/-- `folly::to<std::string>` of a number: decimal, most significant digit first (the fuel is more than enough). -/
def decAux : Nat → Nat → Str
  | 0, _ => []
  | f + 1, n => if n < 10 then [digit n] else decAux f (n / 10) ++ [digit (n % 10)]
/-- `folly::to<std::string>` of a number. -/
def dec (n : Nat) : Str := decAux (n + 1) n

/-- GenericPiecesBase.cpp:57-61 -/
def createPieceHeaderKey (baseKey : Str) (versionID : Nat) : Str :=
  baseKey ++ (kCachePieceSeparator ++ (['h', 'e', 'a', 'd', 'e', 'r', '-'] ++ dec versionID))

/-- GenericPiecesBase.cpp:63-84 -/
def createPieceKey (baseKey : Str) (pieceNum piecesPerGroup versionID : Nat) : Str :=
  let groupNum := if piecesPerGroup > 0 then pieceNum / piecesPerGroup else 0
  if groupNum = 0 then
    baseKey ++ (kCachePieceSeparator ++ (['b', 'o', 'd', 'y', '-'] ++ (dec versionID ++ (['-'] ++ dec pieceNum))))
  else
    baseKey ++ (kCacheGroupSeparator ++ (dec groupNum ++ (kCachePieceSeparator ++ (['b', 'o', 'd', 'y', '-'] ++
      (dec versionID ++ (['-'] ++ dec pieceNum))))))

/-- `StringPiece::find`: the first position at which `pat` occurs. -/
def find (pat : Str) : Str → Option Nat
  | [] => if pat.isEmpty then some 0 else none
  | c :: s => if pat.isPrefixOf (c :: s) then some 0 else (find pat s).map (· + 1)

/-- GenericPiecesBase.cpp:86-96 -/
def getBaseKey (key : Str) : Str :=
  let found := match find kCacheGroupSeparator key with
    | none => find kCachePieceSeparator key
    | some i => some i
  match found with
  | some i => key.take i
  | none => key

end Verif.Pieces
