# Formal model of webparse: design

The code under study is /repo (crate `webparse`, Rust), read as text, never built.
The model and proofs are Lean 4 under `lean/Verif`.

## Layout

* `Verif/Model/*.lean`: the model. One definition per Rust function, each with a comment citing file and lines.
* `Verif/Spec/*.lean`: small independent specifications (RFC tables, abstract maps, grammars).
* `Verif/Proofs/*.lean`: lemmas.
* `Verif/Props/*.lean`: the property theorems, named `Cnn_...`, with examples that meet their hypotheses.

## Modelling conventions

* Bytes are `UInt8`, byte strings `List UInt8`. A reader (`Bt`) is the list of bytes not yet read. A writer (`BtMut`) is the list of bytes written.
* `&mut` parameters become returned values. `Result` becomes `Res.ok` / `Res.err`; every reachable `panic!`, `unwrap`, `assert!`, index or arithmetic overflow becomes `Res.panic`.
* `usize` is 64 bits wide. Where a wrap or overflow can matter the bound is explicit.
* Loops are structural recursion. A loop that may not end is modelled as a step function, and non-termination is a theorem about all step counts.
* Rust `String`/`&str` are byte strings; validity of UTF-8 is an explicit predicate where the code checks it. That predicate, and the replacement done by `from_utf8_lossy`, are models of the standard library; the predicate is proved equal to RFC 3629 (`utf8Valid_iff`, Spec/Utf8.lean), and lossy conversion is proved to give UTF-8 and to leave exactly UTF-8 unchanged.

## Trusted base

* Lean 4 kernel and the axioms `propext`, `Classical.choice`, `Quot.sound` (see the axiom table at the end).
* The reading of /repo: the theorems are about the model.
* External crates, assumed: `algorithm::buf` (reads consume from the front, `chunk()` exposes all remaining bytes, `put_*` append big-endian and return the byte count, `get_*` big-endian, `try_get_*` fail when short, `inner_put_slice` appends, and the default `put_u16` of the trait goes through `put_slice`, so that `Masker` masks it); `bitflags` (`from_bits` rejects unknown bits, `from_bits_truncate` drops them); `base64` (engine `URL_SAFE_NO_PAD`, modelled in `Model/HttpSettings.lean` from RFC 4648); `std` (`HashMap`, `Vec`, `VecDeque`, `from_utf8`, `from_utf8_lossy`, integer parsing and formatting).
* A `HashMap` lookup finds a key exactly when the key hashes and compares equal; accidental 64-bit hash collisions are not modelled.

## Not modelled

* Locks and `Arc` (only C123 has threads: each lock is held for the lines of one step, and the steps of the threads are interleaved in any way; memory ordering and the lock itself are trusted), logging, `Debug` output other than that of error reasons (C110), allocation, running time (C132 counts comparisons of names only).
* Trait plumbing (`TryFrom` blanket uses, builders' generic parameters) beyond the conversions named in the properties.
