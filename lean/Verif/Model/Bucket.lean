import Verif.Model.KeyFormat
import Verif.Model.Leaf
/-!
# The bbolt key-value store as used by the index

Trusted model of the third-party package `go.etcd.io/bbolt` (not part of
`/repo`): a bucket is a finite map from byte strings to byte strings kept in
ascending byte order. Key and value slices returned by bbolt have `cap == len`.
-/

namespace Btrfscue

/-- A bucket: entries in strictly ascending key order (see `Bucket.Sorted`). -/
abbrev Bucket := List (Bytes × Bytes)

/-- `Bucket.Put(k, v)`: insert or replace, keeping the order. (Size limits of
bbolt are not modelled.) -/
def Bucket.put (b : Bucket) (k v : Bytes) : Bucket :=
  match b with
  | [] => [(k, v)]
  | e :: r =>
    if bytesLt e.1 k then e :: Bucket.put r k v
    else if bytesLt k e.1 then (k, v) :: e :: r
    else (k, v) :: r

/-- `Bucket.Get(k)` (`none` = nil). -/
def Bucket.get (b : Bucket) (k : Bytes) : Option Bytes :=
  match b with
  | [] => none
  | e :: r => if e.1 = k then some e.2 else Bucket.get r k

/-- A cursor: the bucket and the index of the current entry. -/
structure Cursor where
  bucket : Bucket
  pos : Nat
  deriving DecidableEq

/-- The entry under the cursor (`none` = nil). -/
def Cursor.cur (c : Cursor) : Option (Bytes × Bytes) := c.bucket[c.pos]?

/-- `Cursor.Seek(k)`: move to the first entry with a key `≥ k`. -/
def Bucket.seek (b : Bucket) (k : Bytes) : Cursor :=
  ⟨b, (b.takeWhile fun e => bytesLt e.1 k).length⟩

/-- `Cursor.First()`. -/
def Bucket.first (b : Bucket) : Cursor := ⟨b, 0⟩

/-- `Cursor.Next()`: at the last entry it returns nil and stays there. -/
def Cursor.next (c : Cursor) : Option (Bytes × Bytes) × Cursor :=
  if c.pos + 1 < c.bucket.length then
    ((Cursor.mk c.bucket (c.pos + 1)).cur, ⟨c.bucket, c.pos + 1⟩)
  else (none, c)

/-- `Cursor.Prev()`: the entry before the current one, nil at the first. -/
def Cursor.prev (c : Cursor) : Option (Bytes × Bytes) :=
  if c.pos = 0 then none else c.bucket[c.pos - 1]?

/-- `k[:n]` for a key slice (`cap == len`). -/
def keyTo (k : Bytes) (n : Nat) : Go Bytes :=
  if n ≤ k.length then .ok (k.take n) else .panic

end Btrfscue
