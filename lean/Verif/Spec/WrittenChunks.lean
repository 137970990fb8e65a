import Verif.Spec.Chunk
import Verif.Spec.Grammar

/-! RFC 9112 7.1: a whole chunked body, and how a caller writes one. -/

namespace Webparse.Spec

/-- `chunked-body`: chunks of at least one octet, the last chunk of size 0, the trailer fields and an empty line. -/
inductive ChunkedBody : List Bytes → List (Header × Bytes × Bytes) → Bytes → Prop
  | last {size ext text : Bytes} {fields : List (Header × Bytes × Bytes)} :
      ChunkSize size → hexVal size = 0 → ChunkExt ext → FieldSection fields text →
      ChunkedBody [] fields (size ++ ext ++ [13, 10] ++ text)
  | more {size ext data text : Bytes} {ds : List Bytes} {fields : List (Header × Bytes × Bytes)} :
      ChunkSize size → data ≠ [] → hexVal size = data.length → ChunkExt ext → ChunkedBody ds fields text →
      ChunkedBody (data :: ds) fields (size ++ ext ++ [13, 10] ++ data ++ [13, 10] ++ text)

/-- A caller that writes each piece with `encode_chunk_data` and then the end, an empty chunk, with it. -/
def writeChunked (pieces : List Bytes) : Bytes :=
  pieces.flatMap (fun d => (encodeChunkData d).1) ++ (encodeChunkData []).1

/-- A receiver that follows RFC 9112 hears this body, and the next message begins with `after`. -/
def HeardBody (bytes body after : Bytes) : Prop :=
  ∃ ds fields text, ChunkedBody ds fields text ∧ bytes = text ++ after ∧ body = ds.flatten

end Webparse.Spec
