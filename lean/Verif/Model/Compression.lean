import Verif.Model.Struct
/-
kiel/compression/gzip.py and kiel/compression/snappy.py.
The raw codecs (stdlib `gzip`, `python-snappy`) are parameters.
-/
namespace Kiel

/-- The external compressors. `gzip`/`gunzip` stand for the whole of
kiel/compression/gzip.py:8-42 (a thin wrapper around `gzip.GzipFile`);
`snappyRaw`/`unsnappyRaw` are `snappy.compress`/`snappy.uncompress` of python-snappy and
`snappyAvailable` is kiel/compression/snappy.py:5-9. -/
structure Codec where
  gzip : Bytes → Bytes
  gunzip : Bytes → Res Bytes
  snappyAvailable : Bool
  snappyRaw : Bytes → Bytes
  unsnappyRaw : Bytes → Res Bytes

/-- kiel/compression/snappy.py:17-24 (`MAGIC_HEADER`, `raw_header`):
`struct.pack("!bccccccbii", -126, 'S','N','A','P','P','Y', 0, 1, 1)`. -/
def snappyHeader : Bytes :=
  [0x82, 0x53, 0x4e, 0x41, 0x50, 0x50, 0x59, 0x00,
   0x00, 0x00, 0x00, 0x01, 0x00, 0x00, 0x00, 0x01]

/-- kiel/compression/snappy.py:22 (`BLOCK_SIZE`). -/
def snappyBlockSize : Nat := 32 * 1024

/-- The loop of kiel/compression/snappy.py:44-49.  `fuel` bounds the number of blocks; the
caller passes the length of the data, which is enough since each block is non-empty.
`struct.pack("!i", len(compressed))` can fail. -/
def snappyBlocks (raw : Bytes → Bytes) : Nat → Bytes → Res Bytes
  | 0, _ => .ok []
  | fuel + 1, data =>
    if data = [] then .ok []
    else
      let compressed := raw (data.take snappyBlockSize)
      match packInt 4 compressed.length with
      | .error e => .error e
      | .ok size =>
        match snappyBlocks raw fuel (data.drop snappyBlockSize) with
        | .error e => .error e
        | .ok rest => .ok (size ++ compressed ++ rest)

/-- kiel/compression/snappy.py:27-55 (`compress`). -/
def snappyCompress (cx : Codec) (data : Bytes) : Res Bytes :=
  if ¬ cx.snappyAvailable then .error .runtimeError
  else
    match snappyBlocks cx.snappyRaw data.length data with
    | .error e => .error e
    | .ok bs => .ok (snappyHeader ++ bs)

/-- The loop of kiel/compression/snappy.py:72-79.  `length` is line 68.  A negative
`block_size` makes `struct` reject the format.  `fuel` bounds the number of blocks; each
consumes at least four bytes. -/
def snappyUnblocks (raw : Bytes → Res Bytes) (data : Bytes) (length : Int) :
    Nat → Nat → Res Bytes
  | 0, _ => .ok []
  | fuel + 1, buffOffset =>
    if (buffOffset : Int) ≤ length then
      match unpackInt 4 data buffOffset with
      | .error e => .error e
      | .ok blockSize =>
        if blockSize < 0 then .error .structError
        else
          match unpackBytes blockSize.toNat data (buffOffset + 4) with
          | .error e => .error e
          | .ok block =>
            match raw block with
            | .error e => .error e
            | .ok out =>
              match snappyUnblocks raw data length fuel
                  (buffOffset + 4 + blockSize.toNat) with
              | .error e => .error e
              | .ok rest => .ok (out ++ rest)
    else .ok []

/-- kiel/compression/snappy.py:58-85 (`decompress`) on bytes. -/
def snappyDecompress (cx : Codec) (data : Bytes) : Res Bytes :=
  if ¬ cx.snappyAvailable then .error .runtimeError
  else
    snappyUnblocks cx.unsnappyRaw data
      ((data.length : Int) - snappyHeader.length) (data.length + 1) snappyHeader.length

end Kiel
