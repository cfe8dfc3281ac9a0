# Formal model of TraceBundy/tecdsa — design

Subject: the Go packages `common`, `curve`, `rand`, `seed`, `ro`, `key`, `poly`, `zk`, `mega`,
`dealings`, `complaints`, `sign` (and the protocol driver in `testutils`) of `/repo`.
Prover: Lean 4.33 with Mathlib.  The properties are listed in `properties.jsonl`, their status in
`MANIFEST.json`.

## 1. Modelling decisions

* **Results.**  A Go call can return a value, return an error, panic, or (rejection sampling) loop for
  ever.  `Res α` has a constructor for each.  Error *messages* are kept as strings; theorems speak of
  "is an error", "is a panic", never of the message.
* **nil** is explicit: a Go function that can return `(nil, nil)` returns an `Option` inside `Res`.
* **Interface values.**  Where the code type-switches or type-asserts, the dynamic types are the
  constructors of an inductive type.  A value and a pointer to it are *different* dynamic types and get
  different constructors (two of the disagreements below come from exactly this).
* **Bytes** are `List UInt8`; slices are lists; Go slice expressions that can panic are modelled as such.
* **Integers.**  `NodeIndex` (Go `int`) is a 64-bit two's complement `BitVec 64`; conversions to `uint64`
  and `uint32` and the additions on them wrap as in Go.  `int` parameters that are only compared are `Int`; the
  one product of such a parameter (`count * fieldLen` in `HashToField` and `HashToScalar`) wraps.
* **Scalars** are `ZMod n`, **field elements** `ZMod p` with the real secp256k1 constants (both primes are
  *proved* prime from Pratt certificates).  **Points** are Mathlib's `WeierstrassCurve.Affine.Point` of
  `y² = x³ + 7` over `ZMod p`; the group order is *proved* to be `n`.
* **Hash functions and ciphers** (SHA-256, HMAC-SHA-512, ChaCha20 keystream) are parameters (`Prim`): every
  theorem holds for all functions of the right type.  No collision resistance is assumed anywhere; claims
  about "binding to X" are stated as "the hashed byte strings differ".
* **Randomness** enters as a seed and a keystream, so claims quantify over all streams.
* **Mutation.**  Go methods `r.Op(a,b)` write to `r`.  Most of the model describes the functional result of the call
  sequence, and the comment of the definition says so.  The modules `Model/Heap*` describe the same code on a memory
  (addresses, allocation, reads and writes, in the order of the code), and C112 onwards prove that it computes the
  functional result for every aliasing of its arguments and changes nothing it should not.  A pointer and the library
  object inside it count as one object; a library operation reads its operands before it writes its result.  `Model/HeapBytes.lean`
  does the same for byte slices.
* **Ordered maps** (`btree.Map`) are association lists strictly sorted by key; `Set` is sorted insertion.

Where the code does not have a property a user would expect, the negation is proved with a witness (for
the code as it is) and the part that does hold is proved with the suffix `_partial`; see section 5.

## 2. Layout of `lean/Verif`

| module | content |
|---|---|
| `Base/*` | `Res`, bytes, big-endian values, ordered maps |
| `Curve/*` | primes, Pratt certificates, the curve, its order, executable arithmetic |
| `Model/*` | the model of the code, one module per Go file (comments cite file and lines) |
| `Spec/*` | independent specifications the property theorems refer to |
| `Lemmas/*` | helper lemmas |
| `Props/*` | the property theorems, one file per group, each with non-vacuity examples |
| `Kat/*` | SHA-256, HMAC-SHA-512, ChaCha20 concretely; the model run by the kernel on the repository's known-answer tests |

## 3. Trusted base

* Lean's kernel and the three standard axioms `propext`, `Classical.choice`, `Quot.sound`.  Every theorem in `MANIFEST.json`
  depends on all three (`#print axioms`), except these: on `propext` and `Quot.sound` only depend `C20_first_preimage_injective`,
  `C86_every_combination_partial`, `C134_views_partial`, `C134_compress_partial`, `C134_construction_partial`, `C135_false`, `C136_reverse`,
  `C138_false`, `C157_words`, `C181_made_partial`, `C181_exact_partial`; on `propext` only `C86_secret_from_partial`, `C133_name`.
* The model: that the definitions in `Model/*` describe the Go code (read as text).
* The dependencies, whose source is not available here and which are modelled by their contracts:
  * `coinbase/kryptology` `native.Field` for K256 `Fp`/`Fq`: ring operations modulo the prime; `SetBytes`
    little-endian and failing iff the value is not below the modulus; `SetBytesWide` 512-bit little-endian
    reduction; `SetBigInt` reduction; `Bytes` little-endian canonical; `Invert` of 0 leaves the receiver
    unchanged (every call in the repository has receiver 0 in that case); `Cmp` compares canonical values (only
    `IsHigh` calls it; C173 says what changes if it compares Montgomery representations: C16, C70 and what other
    claims say about low s would not hold; signatures would still verify, and C105 would hold);
    `Sqrt` returns a root and flag 1 for squares, flag 0 otherwise.
  * `native.EllipticPoint`: group law of the curve; `GetX`/`GetY` affine coordinates (0 for the identity);
    `Equal` is equality of points.
  * `tidwall/btree.Map`: ordered map, `Scan` in ascending key order.
  * `fxamacker/cbor`: `Marshal` writes the shortest heads of RFC 8949, structs as maps in the order of the fields, byte
    slices as byte strings, and embeds `RawMessage` and the results of `MarshalCBOR` as they are; `Unmarshal` reads back
    documents of this shape (others are not modelled). That reading inverts writing is proved (C139–C141); decoding into a Go
    array skips surplus elements and leaves missing ones nil (assumed from memory of the library, its source is
    not available; no theorem depends on the case of missing elements).
  * `crypto/sha256`, `crypto/hmac`, `golang.org/x/crypto/chacha20`: arbitrary functions of the right sizes.
    `key_derivation.go:76` asks the registry of `crypto` for SHA-512 without importing `crypto/sha512`; it is assumed that a dependency links
    that package (otherwise `hmac.New` panics for every non-empty path).
* Not modelled: `ToString` of openings (`poly/commitment.go:91,110`, constants), logging, Go memory limits, interleavings of goroutines (the
  package starts none; see C185 for what calls write to), timing.
* Functions without a definition of their own, because they only wrap or return something that the model has as a value:

  | in the code | in the model |
  |---|---|
  | `CurveType` methods (`k256_fe.go:89`, `k256_point.go:98`, `k256_scalar.go:60,153`, `poly.go:64`, `dlog.go:123`, `mega/key.go:55,68`) | always K256. Comparisons of the curves of two modelled values always succeed and are omitted; comparisons with a curve argument are kept (`VerifyIs`, `PubliclyVerify`, `PrivateVerify`) |
  | `Secp256k1Point.Equal`, `IsInfinity` (`k256_point.go:170-172,198-200`) | equality of points, equality with 0 |
  | `Secp256k1Point.Assign` (`k256_point.go:174-177`) | none on values (outside tests nothing calls it); on memory `Heap.assignPt` in `HeapAccess.lean` |
  | `Secp256k1Scalar.BigInt` (`k256_scalar.go:147`), `ScalarBytes` (`:156`) | `ZMod.val`, the list of bytes |
  | `encode32.toSize` (`encode.go:118`) | the constant 32 |
  | `fromHex` (`k256_fe.go:21`) | the constants it is applied to are written as numbers |
  | `NewMEGaPublicKey`, `NewMEGaPrivateKey`, `PublicPoint`, `SecretScalar`, `Serialize` of keys (`mega/key.go:41-53,63-67,95-101`) | on values, a public key is its point and a private key its scalar; on memory they are defined in `HeapKeys.lean` |
  | `CType`, `Ephemeral`, `PopPublic`, `Proof` (`ciphertext.go:159-173,268-282`), `VerifyPop` (`:196-198,284-286`) | fields of `Ciphertext`; `Mega.verifyPop` with the kind |
  | `New`, `Type`, `Points`, `Len` of commitments (`commitment.go:139,196-206,259,319-329`) | fields of `Commitment`; `New` and `Points` are also defined on memory, in `HeapAccess.lean` |
  | `LagrangeCoefficients.Coefficients` (`lagrange.go:40`), `key.New` (`key_derivation.go:65`) | the list itself; `key.New` is also defined on memory, in `HeapBytes.lean` |
  | `NewSignatureProtocolExecution` (`signature_protocol_setup.go:83-92`) | its fields are arguments. The functions take any byte string as hashed message, as in the code; `C108_signing` applies them to `P.sha256 msg` |
  | `OpenDealing`, `FromBytes` of `poly`'s `commitmentOpening` (`poly/commitment.go:49,76`) | not modelled; stubs that return nil, and nothing calls them |

## 4. Properties: what is modelled and how it is proved

* C01–C03, C10, C11 (scalars): byte-level model of `k256_scalar.go`/`scalar.go`; proofs by induction on
  byte lists about big-endian values.  C03 is false: negation with witness plus the exact acceptance rule.
* C04–C09 (points): byte-level model of `encode.go`, `k256_point.go`, `point.go` over `ZMod p`; round trip
  uses `p ≡ 3 (mod 4)` square roots.  C05–C09 are false or partly false: negations and exact partial results.
* C12, C13 (node indices): `BitVec 64` model; C13 by induction on the bit loop.
* C14: Pratt certificates for `p`, `n`; `n·G = 0` by kernel evaluation of an executable double-and-add proved
  equal to Mathlib's group law; counting argument (`#E ≤ 2p+1 < 3n`, no point of order two) gives `#E = n`.
* C15: algebra in the one-dimensional `ZMod n`-module of points.
* C16: arithmetic on canonical representatives.
* C17: SSWU and the 3-isogeny over `ZMod p`; the polynomial identity of the isogeny is checked coefficientwise
  in the kernel and the exceptional cases excluded by Euler's criterion.
* C18–C20 (hash to field, XMD): refinement to a transcription of RFC 9380; injectivity of the preimage.
* C21, C22: rejection sampling as a least fixed point over an arbitrary keystream; C22_exact names the label and the bytes behind each way of making a seed.
* C23–C27 (random oracle): ordered-map model; the encoding is parsed back.  C26 is false for associated data
  longer than 255 bytes (negation), true below (partial).
  zk/product.go:92 hashes under the separator of the proofs of equal openings (`ProofOfProductDst` is never used), so C27 rests
  on the names of the inputs for these two systems.
* C28–C31 (key derivation): induction on byte strings and paths.  C31 is false: negation and partial.
* C32–C38 (polynomials): model of `poly.go`/`lagrange.go` on coefficient lists; specification by Mathlib
  polynomials.  C33 and C35 are false: negations and partials.
* C39–C44 (commitments): model of `poly/commitment.go`; Horner evaluation in the group by induction on the point list.
  C39 (empty commitments, pointer openings), C40, C42, C43, C44 are false in general: negations and partials.
* C74–C76 (commitment creation, constant term, `VerifyIs`, `ReturnOpeningIfConsistent`): added after mutation testing found
  that no theorem covered them.
* C45–C48 (zero knowledge): algebra for arbitrary hash functions; soundness as "the challenge hits one value".
* C49–C53, C77–C82 (MEGa): model of `mega/*.go`; round trips by induction on the recipient list; forged proofs of
  possession through C48.  Ciphertexts hold non-nil curve points and a non-nil proof (a nil proof would panic in the code).
  C51, C52, C77, C78, C82 are false in general: negations and partials.
* C54–C57, C83–C87 (dealings): model of `dealings/dealings.go`, `secret_shares.go`, `zk_proof.go`; a returned dealing is
  described completely (C85) from the loops' invariants, public verification is characterised by an equivalence (C57).
  The dealing's own commitment is a plain one; scalars, points and proofs inside non-nil values are non-nil.
* C58–C64, C88–C91 (transcripts): model of `dealings/transcript.go`, `transcript_operation.go` and `dealings/commitment.go`.
  Combined commitments are linear combinations with the Lagrange weights; interpolation is exact for polynomials with fewer
  coefficients than dealers.  C58–C60 are end to end: from `NewIDkgDealingInternal` through `NewTranscriptInternal` to the
  shares of `FromDealings`.  C59 (unmasked), C63, C64, C88, C91 make no assumption on the dealers' honesty.
* Complaints (`Model/Complaints.lean`): all of complaints/complaints.go. A complaint's proof and shared secret are taken to be
  non-nil. What a recipient's share is, and when it is good, is stated in `Spec/Complaints.lean` (`ShareUnder`, `GoodShare`)
  without the decryption functions; only the pads come from the model.
* C68–C73, C96–C105 (signing): the whole of `sign` is modelled. The shared secrets are any polynomials with the right constant
  terms (`Sign.Secrets.Consistent`); which transcripts have them is C58–C60. ECDSA validity is stated after SEC 1, not through
  the code's own `Verify`.
* C103, C106–C110 (protocol runs): the driver in `testutils` (setup, creation and damaging of dealings, complaints and openings,
  the four kinds of rounds, signature setup and signing), with all random choices taken from arbitrary key streams.  C103,
  C106–C108 are about runs that return, C110 says when they do (`Flows`, `Fair`, `ZeroScalar` in `Spec/Protocol.lean` name what
  can go wrong with a generator; the examples use one that counts); `crypto/ecdsa.Verify` is modelled by its contract.  Of
  `TestPublicDealingVerification` only the first check is modelled there; C137 says what the others add.
* C111 and `Kat/*`: the model with concrete primitives is evaluated by the kernel on the fixed vectors of `seed_test.go`,
  `ro_test.go`, `hash_to_curve_test.go`, `point_test.go`, `key_test.go` and `lagrange_test.go`; all agree.  These are tests of the
  model against values the Go code produces, nothing else depends on them (C111, about constants, is the exception).
* C112–C114 (memory): `Go α = Mem → Res α × Mem`, so that what was written before an error or a panic is visible.
  `Outcome` (in `Spec/Heap.lean`) compares a run with a result on values; loop invariants say which objects are fresh.
* C115 (randomness): a dealing's choices are said to be independent by surjectivity: whatever choices are wanted, some key
  streams lead to them.  The key streams are the parameter `chacha20` of the model, so this needs no probability; the only
  assumption is that the derived keys differ, which is a statement on the hash.
* C116, C117 were added because two seeded faults (reconstruction at the wrong index, masked nonces accepted) had not been
  noticed by any theorem.
* C118: `Spec/Rfc9380Curve.lean` transcribes sections 6.6.2, 6.6.3, 8.7 and appendix E.1 of RFC 9380 as relations (what the result
  must satisfy, with square roots and the isogeny's exceptional points as in the RFC), not as a program; the constants are
  those of the appendix.  `C118_rfc_unique` shows that the relations have one solution.  SHA-256 is a parameter here too.
* C119–C121 (zk and mega on memory): structures whose fields are never assigned after construction are records of addresses;
  `View` says which objects a structure reaches and which value it stands for.  Hash functions and the generator read values
  and return new objects.
* C122, C123 (dealings, transcripts and openings on memory): as C119–C121.  An interface value of Go is a record whose first
  field is the dynamic type, so a nil interface, a nil pointer and a value of the wrong type stay apart; maps are data.
* C124, C125 (key derivation, signing and complaints on memory): as C122.  The recursion of `ckdpub` is a `partial_fixpoint`
  here too and carries the memory along, because what the discarded call allocates stays allocated.
* C126 (hashing to the curve on memory): the thirteen field elements of the exported global `K256C` are objects at arbitrary
  addresses; `Constants` says that they hold the constants.  Byte strings are values: `ReverseBytes`, `AsBytes` and the
  expansion allocate.  Coordinates reach a point through bytes, so a point refers to no field element.
* C127 (`CorruptDealing` on memory): the value model is `Protocol.corrupt`, which the driver of C103–C110 uses; it speaks of
  distinct targets in range, as `CreateDealings` passes them.  The memory model has no such restriction.
* C128–C131 (what proofs, dealings and transcripts show): perfect statements, without probability, of the form "for every other secret
  there are random choices that give the same view", together with counting (`C129_equally_many`).  As in C115 the key streams
  are the parameter.  A group's view consists of all parts of a dealing except the ciphertext entries of the others; that those
  entries hide anything is a computational property of the encryption and not claimed.  C130 needs one honest dealer; the
  others may be any that are accepted and opened.  Dealings without mask fix `s • G`; there the statement is that the view can be
  computed from `s • G` and the group's shares (C131).
* C132, C133 (curve types): `Model/Curves.lean` models the switches on the curve type for every value of it; everywhere else
  the curve is K256, and `C132_k256` says that the two agree.  A nil object is `none`.
* C134–C136 (curve/encode.go, common/utils.go): Go strings are byte strings; `Model/EncodeHex.lean` models the two functions of
  Go's encoding/hex that are used.  Sharing of the underlying array between an encoding, `Compress` and `AsBytes`
  is the subject of C181.
* C137, C138 (the driver's own checks): `Model/ProtocolChecks.lean` has the four checks of `TestPublicDealingVerification`, of
  which `Model/Protocol.lean` keeps the first; `C137_driver` says what leaving out the others amounts to.
* C139–C141 (bytes of serialised values): `Model/Cbor.lean` writes the bytes, `Spec/Cbor.lean` is a reader after RFC 8949 that
  knows nothing of the code; the theorems say what the reader finds. The driver theorems hold for any encoding of non-empty
  commitments, and `C110_program` for this one.
* C142, C143 (field elements): kryptology's inversion is taken to leave the receiver unchanged when the argument is zero.
* C144, C145 (rounds of the driver): what testutils/protocol_test.go tries on four and five nodes.  "Refused" leaves open the
  same defects of the random generator as C110 (`Refused`, beside `GoesThrough`).
* C146 (reuse of presignatures): a fact about accepted signatures, not a defect of one function; the attack is
  `recoverKey`, a function of public values.
* C147 (even reduction): counts of byte strings; that SHA-256 gives evenly distributed bytes is of course not claimed.
* C148 (agreement): binding of Pedersen commitments is conditional, so the theorem names the search that finds the discrete
  logarithm when openings disagree; `exists h` alone would be empty, since a discrete logarithm always exists.
* C149 (signing): simulation as a bijection between the secrets that fit the group's openings and the simulator's four coins;
  the key, the nonce and the signature are given.  Ciphertexts are not in this view (see C129, C130).
* C150-C152 (random oracle model): `Spec/Oracle.lean` has programs as decision trees and counts all functions from a finite set of
  questions (separator and message) to answers.  `C150_verify` and `C152_code` tie this to the code's own hash function.  Statements
  about equal openings and products are always true in the group (both generators generate it), so soundness is claimed for
  discrete logarithms only, and knowledge (C151) for all three.  Scalars and pairs of scalars are answers of two separate oracles,
  as expand_message_xmd hashes the requested length.  Coins of a program are not counted: the bounds hold for each outcome of them.
* C152 (ciphertexts): the program may be given anything that does not depend on the hidden pads (`Fair`).  The step to "computational
  Diffie-Hellman is hard" is the last 33 bytes of a question that is asked; no hardness is assumed anywhere.
* C153 (`Equal` of coefficients): the comparison of curve types is left out, there is one curve.
* C154-C158: functions that the protocol does not call, found by looking for definitions of the model that no property theorem
  depends on.
* C159 (zero knowledge in the random oracle model): the simulator sees the statement only (`claim`), and sets the oracle's answer
  to one question.  The nonce is uniform; that the code draws it from ChaCha20 keyed by the seed is in `C159_code` (`Draws`),
  uniformity of that stream is an assumption.  One proof; what the program does before and after is arbitrary.
* C160 (many proofs): a hybrid argument over C159, made-up proofs replacing the others from the last one on.  The nonces of the
  proofs are independent and uniform.  A second nonce is counted for each proof and used by products only.
* C161 (a random dealing in the random oracle model): commitments and entries of all recipients at once, where C152 is about the
  ciphertext and C129 about commitments and openings.  The ephemeral key and the proof of possession do not depend on the secret
  (`C152_code`) and are part of what the program is given.  `C161_code` ties the view to `NewIDkgDealingInternal`; that the
  generator's output is uniform is an assumption.  Dealings of products also publish a proof whose statement has the mask's constant
  term in it: C165.
* C162 (cheating dealers): `H` being a multiple of `G`, every masked commitment opens to every value, so the theorem is about what
  is known: `ProductOf.answers` says that `a j` comes from two answers of dealer `j` to one first message, which is what rewinding
  gives (C151), and the conclusion is that the shared value is right or that an explicit number (`productLog`, `reshareLog`), a
  quotient of known quantities, is the discrete logarithm of `H`.  Numbers `a j` exist for all accepted dealings (`answers_exist`).
* C163 (signatures despite cheating dealers): C162 for the two products, C148 for the signers' openings and C68.  The six numbers are
  listed by `productLogs`.  The key and nonce transcripts may come from anywhere.
* C164 (cheating dealers in the random oracle model): the program stands for all dealers together and ends with the polynomials of
  the factors and with openings of the constant terms.  If the shared value is wrong then one dealer's value is, so one rewinding
  is enough.  `C164_code_product` and `C164_code_reshare` say that dealings accepted by the code are of this form.
* C165 (dealings of products in the random oracle model): C159 replaces the proof by a made-up one, C161 then changes the secret,
  C159 puts the proof back.  Pads and challenges come from two oracles since the code's domain separators differ.  The first
  factor is committed to without a mask, so its share is the same in both cases.
* C166 (no bias in random transcripts): C161 with the secret averaged over all values.  The other dealers are one program, which ends
  with the sum of the secrets it deals.  That dealers know what they deal is an assumption: they encrypt the shares, but no proof of
  knowledge goes with a random dealing.  `C166_code` says that the sum is the secret of the transcript that the code makes.
* C167 (dealings without mask in the random oracle model): commitments without mask determine the secret, so the claim is that the
  dealing can be made up from `secret • G`.  The made-up commitments are those of a random polynomial with constant term 0 plus
  multiples of the public key by a polynomial that vanishes for the group (`Vanishes`; it exists for every group below the
  threshold, `exists_vanishing`).
* C168 (keys on memory): keys are records of the address they hold, the curve is K256.  The theorem speaks of what `Serialize`
  returns after later writes.  For decoded public keys it is limited to points of the curve.
* C169 (the driver on memory): the results are compared with `Model/Protocol`, whose simplifications it shares (maps are lists, the
  generator and the choice of indices work on values).  "Nothing changed" is about objects that exist before the call: damaging a
  dealing writes to the dealing's own objects, which that call made.
* C170 (seeds used twice or known): the hypothesis that challenges differ cannot be dropped, since the hash function is any
  function; with equal transcripts they are equal.  The values computed from public data are defined in `Spec/SeedReuse`.
  The library never uses a seed twice itself: each use derives a new one by a label.  The driver of testutils, however, derives
  the seeds of complaints from the combined commitment (testutils/dealings.go:18-30), so that its complaints give the private keys
  away by the last part of `C170_complaints`; this is test code.
* C171 (exact binding): the positive parts of C26, C77, C78, C92 and C98 and the negations beside them in one equivalence for each
  hash; the direction from equal outputs to equal arguments needs hash functions that tell the transcripts apart
  (`exists_prim_expand`, and for points the map to the curve evaluated at two field elements).
* C172 (even sampling): streams are counted, not seeds; that ChaCha20 turns evenly distributed seeds into streams that look evenly
  distributed is an assumption about ChaCha20 outside the model.  A stream of `k` blocks counts for a list if the draws consume at
  most these blocks.
* C173 (the library's `Cmp`): the source of the library is not available, and a comparison of limbs in Montgomery form is a
  plausible reading of its `Cmp`.  The claim does not say which one it is.
* C174 (cheating signers): the cheating signer is taken to know the other shares (it may send its own last).  `sumWeight` and `fitting`
  are explicit, so that the share is computed, not only shown to exist.  The last part is about the predicate `OpensCombinations`,
  which the code does not check; it says that the check intended in sign/share.go would suffice.
* C175 (renewal of shares): the nodes that the adversary reads follow the protocol (a dealer's constant term is its share), and the
  dealings are honest.  The view consists of private values and commitments; ciphertexts are left out (one dealing with its
  ciphertexts is the subject of C161 and C167).  "Exactly one choice for each secret" is a count over polynomials: that the generator
  draws them evenly is C172 with its assumption.  `C175_code` links one resharing of the model to the code; the chain is made of such steps.
* C176 (commitments on memory): a commitment is the record of the addresses it holds.  In Go the slice of these pointers is shared by
  `New` and `Points` as well, so that its elements could be replaced; the model leaves that out, and the negation does not need it.
* C177 (reduction to Diffie-Hellman): the terms "asks for the pad of a recipient outside the group" of C161, C165, C166 and C167 are
  bounded by the success of an explicit program `solve` that is given `b • G` and `w • G`.  It plays the recipients outside the group with
  the keys `w • G + r i • G`, and `b • G` as ephemeral key.  The members of the group have fixed private keys, which `solve` uses.
  The proof of possession of the ephemeral key is part of what the programs may know; `solve` does not make it up, so the assumption on
  Diffie-Hellman values is one in the presence of such a proof.  C178 does away with that.
* C178 (reduction with the proof of possession): the hash to the curve is a random oracle here too, which for the one ephemeral key answers
  `r • G` for a random `r`; C17 and C118 say what the code computes, and nothing is proved about how its values are distributed.  Knowing `r`,
  `solve` makes up key and proof of possession from `b • G`.  The program may know the base before it asks for challenges.  Only one
  hash to the curve is random: others are part of the program, as everything it computes itself.  For
  dealings with a second proof the code makes that of possession first; the order of the two does not matter for what is published.
* C179 (documents that encode nothing): documents are those with the three keys of the wire structs, in their order, with unsigned numbers and a
  message of byte strings.  That the library goes on with the other elements of a message after one that could not be decoded, and
  leaves the element as it was, is an assumption about it.
* C180 (amounts of hash output): `make` panics on a negative capacity and on one that needs more than 2^48 bytes, the address space of
  linux/amd64; for capacities in between the memory is assumed to be there.
* C181 (byte slices): `Model/HeapBytes.lean` has byte slices as windows into arrays with a capacity, `append` that writes in place when
  the capacity suffices, and a parameter for the capacity that it chooses otherwise.  It covers `curve/encode.go`, `key_derivation.go`,
  `ro.go`, `xmd.go` and `ReverseBytes`.  Left out: that `key.New` keeps the slice of slices too, and the arrays made by the calls of
  `ckdpub` whose results are dropped.
* C182 (scope of signatures): algebra in the group; at most two points have a given x coordinate, and `p < 2n`.
* C183 (`Model/HeapLagr.lean`): `New` and `Coefficients` on memory; the slice of the pointers itself is not an object, so replacing an
  element of it is left out (it would break the property in the same way).
* C184 (`Spec/ComplaintOracle.lean`): C150 for the proofs of complaints, with C66 and C67; the complaining node's private key is part of what
  the program ends with, since it may belong to the one who complains.
* C185 (`Spec/HeapRace.lean`): memory (`Model/Heap.lean`) carries a record of the objects ever written to, which no modelled code reads.
  `Writes W m m'` of the other heap properties (C112-C127, C158, C169) says of it that everything added is in `W` or new, so a function that
  changes an argument and restores it no longer meets them. C185 states this for a record that starts empty. Two calls neither of which writes
  to an object that existed before, and whose new objects only they can reach, cannot race by Go's memory model; that last step is an argument
  outside Lean, as executions here are sequential.
* C186 (`Spec/SignGame.lean`): C149 made adaptive and for any number of signatures. `Attack` is a program that asks for signature shares;
  `attackNodes` answers with `SigShare.new` on the openings of sharings drawn at random (`secretsOf`; `C186_secrets`: these are all the sharings
  that fit what the group holds), `attackOracle` with values computed by `presigFor` and `sharesFor`, whose arguments are public values, what
  the group holds, `η` with `G = η • H`, and the answers of `ecdsaOracle` (SEC 1 signing with a given nonce). As commitments are shown before
  messages are chosen, the simulation opens them later, for which it needs `η`. The nodes outside the group are honest, and the group's
  nodes may of course send other shares than their own; those do not influence what the others send. The presignature is used once (C146
  says why).
* C187 (`Spec/SignFail.lean`): `NoSignature` is SEC 1's condition to take another nonce, with `ecdsaSign` of C186. The numbers 3 and 7 are
  about secp256k1: no point has x coordinate 0, and x = n belongs to two points, so r = 0 for two nonces; a given r belongs to at most four.
  The code cannot take another nonce: it returns a signature that `Verify` refuses (`combined_sig.go:69`), and the presignature is used up.
* C188 (`Spec/TranscriptExact.lean`): the rule and the formula for transcripts, written without the model's loops; the weights are
  the products ∏ x_j / (x_j − x_i) over the other dealers.
* C189 (`Spec/KeyGen.lean`): the two rounds that make a key, as polynomials.  `C189_random` and `C189_transcript` say that these are what
  the code makes of the dealings.  What others add is a function of the honest dealings of the first round (they may wait for
  them), what the group deals in the second is one of all honest dealings.  Taken as given: dealers of the group reshare their
  shares (what proofs are for, C162 and C164); the proofs and ciphertexts are not part of the view.
* C190 (`Spec/Ceremony.lean`): any number of generations as in C189, the reaction to each being a function of the honest dealings of the
  first rounds of all of them and of everything of the earlier ones; this covers both generating one after the other and the order of
  the driver (first rounds first).  Then signing as in C186, where what is not seen of λ, κλ and xλ is uniform (their two rounds
  are not spelled out; C191 does).
* C191 (`Spec/Presig.lean`): C190 with the rounds for λ, κλ and xλ spelled out, in the order of the driver.  Honest dealers of a product
  deal the product of their shares; nodes of the group, too (their proofs force it on them, C162), with tails and masks of their choice.
  There are as many dealers as `NewTranscriptInternal` asks for, and at least one is honest.  The coins of the made-up run are those of
  the made-up dealings and one blinding number for each presignature.  Left out: proofs, ciphertexts, complaints; presignatures
  made after the first signature (C193).
* C192: `DerivePublicKey` adds a number that is computed from public data.  The chain codes returned with the keys are public, too; knowing
  them does not enter.
* C193 (`Spec/Session.lean`): a program (`Session`) chooses at each step between one more presignature and one more signature, and chooses how
  the group meddles when it chooses the presignature; the meddling itself reacts to what is seen meanwhile.  Every presignature is a whole run of
  the rounds of C191 for one nonce.  `session_same` is a general lemma on two machines between which such programs cannot tell.
  Presignatures that are made while another is being made, or during a signature, are left out.
* C194 (`Spec/ComplaintLeak.lean`): the generators of the seeds for complaints are assumed to return a scalar (C172).  For dealings that are
  accepted by `PubliclyVerify` with an ephemeral key of another dealer but a second key of their own, see C151 (on programs to which nobody gives proofs): whoever makes the proof knows
  the discrete logarithm, and with it all that the complaint could show.
* C195 (`Spec/Reconstruct.lean`): by how much an opening misses the commitment is a point; the weights are the Lagrange weights of all
  openers at the accused node.  Openings behind pointers (C89) are left out of the exact rule.
* C196 (`Spec/Rogue.lean`): the points that the last dealer puts into its commitment are a formula in public points; ciphertext and proof are
  those of a dealing that was accepted.  Dealers have non-negative indices (otherwise a weight can be zero).
* C197 (`Spec/Context.lean`): a dealing is taken for one of a dealer if any of the three operations on it succeeds; the collision is stated with
  `Ro.Disjoint`, for the inputs of the hash and not for the compression function below it.
* C198 (`Spec/Wire.lean`): the spec lists the fields of each message in sorted order, with literal names, types and separators; the model adds them
  in the order of the code to an ordered map.
* C199 (`Spec/RunSeeds.lean`): runs are an inductive relation over the operations of the driver; the seeds are described by RFC 9380 and positions in
  key streams only. For C199_apart a hash function is built that tells a set of inputs of the expansion from all others.
* C200 (`Spec/DriverLeak.lean`): `key` computes from public values only: encoded transcript commitment, numbers of node and dealer, complaint. Stated
  as what the driver does (status proved); the driver is test code, so this is no entry of section 5.
* C201 (`Spec/Altered.lean`): `Altered` keeps everything of a dealing except the list of encrypted entries, of which only the length stays. `entry`
  writes entries without mask as pairs with mask zero, so that `Relates` (the entries give away the discrete logarithm of `H`) is impossible there.
* C202 (`Spec/OneOperation.lean`): for collisions the two hash inputs are written out, since for any hash function some two inputs
  collide; the same holds for the collisions of C137 and C197 (`Spec/Context.lean`).
* C203 (`Spec/ShareReuse.lean`): `partsFrom` is the explicit computation from two shares and the public numbers of the two requests; it takes the
  blinding from the denominators if the randomisers differ, and from the numerators otherwise. `secretFrom` is Lagrange's formula at 0.

## 5. Disagreements between the code and the listed properties

Each is a theorem about the model; the theorem's comment explains it.

| property | theorem | what the code does |
|---|---|---|
| C03 | `C03_false` | scalar decoding accepts strings of other lengths; one scalar has several accepted encodings |
| C05 | `C05_false` | an `x` not on the curve decodes to the identity, and `x ≥ p` is reduced instead of rejected |
| C06 | `C06_false` | the tag is not stripped: no tagged point can be read back |
| C07 | `C07_false` | uncompressed serialisation panics for every point but the identity |
| C08 | `C08_false` | the any-format decoder panics on short input and accepts points off the curve |
| C09 | `C09_false` | the CBOR form of the identity cannot be read back |
| C26 | `C26_false`, `C26_false_replay` | associated data over 255 bytes is silently dropped from the proof transcripts |
| C31 | `C31_false`, `C31_false_witness`, `C31_false_diverges` | the child of an invalid index is returned instead of the next one |
| C33 | `C33_false` | `MulScalar` scales its receiver instead of its argument |
| C35 | `C35_false` | interpolation fails on distinct samples of a lower-degree polynomial |
| C39 | `C39_false` | `CheckOpening` panics on the empty commitment and on an opening passed as a pointer |
| C40 | `C40_false` | `Create` counts non-zero coefficients: `5X²` is accepted with `num = 1` and committed to as zero |
| C42 | `C42_false` | `Equal` does not compare the kind |
| C43 | `C43_false` | a Pedersen opening is read back as a simple one without its mask; what is read back is a pointer |
| C44 | `C44_false` | Pedersen commitments and commitments containing the identity cannot be read back; the empty one panics |
| C51 | `C51_false`, `C51_negative_panics` | decrypting with a negative index panics |
| C52 | `C52_false` | encrypting nothing to nobody is an error |
| C77 | `C77_false` | dealer and recipient index enter the pads modulo 2^32; associated data over 255 bytes is dropped |
| C78 | `C78_false` | a proof of possession is valid for all dealers whose index agrees modulo 2^32 |
| C82 | `C82_false`, `C82_false_opened` | the identity and strings that encode no point pass `VerifyMegaPublicKey`; what is dealt to the identity everybody can open |
| C55 | `C55_false` | a negative threshold panics; shares of an unexpected type give an all-nil dealing without an error |
| C56 | `C56_false` | verifying a dealing without a proof for a product panics, as do an empty commitment with threshold 0 and a nil embedded proof |
| C83 | `C83_false` | with a wrapped previous commitment the constant term of a resharing is not compared |
| C86 | `C86_false` | `Secret.From` returns one struct by value, which dealing creation does not recognise |
| C61 | `C61_false` | the kinds of dealings are not checked for resharing and products; a random transcript of no dealings commits to zero |
| C62 | `C62_false` | `Compare` compares a transcript with itself: any two are equal |
| C89 | `C89_false` | openings received as bytes are pointers and are skipped: reconstruction fails |
| C90 | `C90_false` | an operation of an unexpected type gives a transcript with a nil commitment and no error |
| C65 | `C65_false`, `C65_mixed_kinds_panic` | a dealing whose ciphertext and commitment are of different kinds makes `GenerateComplaints` panic |
| C92 | `C92_false` | dealer indices enter the complaint modulo 2^32, so it holds for several dealers |
| C94 | `C94_false` | verifying a complaint panics for a negative index and for an empty commitment |
| C95 | `C95_false` | `Verify` does not look at the proof of possession: complaints raised because of it do not verify |
| C69 | `C69_false` | `Share.Verify` only looks at shares held by pointer, and none are |
| C97 | `C97_false` | `DerivePublicKey` takes the all-zero string and strings that encode no point as the identity |
| C98 | `C98_false` | randomness over 255 bytes is left out of the nonce randomiser |
| C99 | `C99_false` | all shares are combined, not `threshold` many: one bad share after enough good ones spoils the signature |
| C100 | `C100_false` | hashes over 32 bytes are reduced as a whole, not cut as SEC 1 prescribes |
| C101 | `C101_false`, `C101_negative_threshold_false` | hashes over 64 bytes and negative thresholds panic |
| C104 | `C104_false` | combination returns `s = 0` without an error when the blinded nonce is zero |
| C109 | `C109_false`, `C109_transcript_false` | only the constant term is compared; the transcript of an unmasked round is refused |
| C121 | `C121_false` | `ProofOfProduct.Clone` copies the pointers to the three scalars |
| C127 | `C127_false` | `CorruptDealing` adds to the scalars of a pair ciphertext in place: the dealing given to it is damaged as well |
| C132 | `C132_false` | curve types other than K256 give nil without an error, an endless loop or a panic; `VerifyMegaPublicKey` accepts one-byte keys for them |
| C134 | `C134_false` | one-byte encodings with an unknown tag are accepted, and reading them panics |
| C135 | `C135_false` | `ToString` writes the whole buffer, which for compressed encodings and the identity is longer than the encoding |
| C138 | `C138_false` | `RandomSeed` keys the generator with zero bytes and always returns the same seed |
| C141 | `C141_false` | the bytes of an opening with mask are read as one without, those of commitments with masks or with the identity are refused |
| C143 | `C143_false` | field decoding accepts strings of other lengths: longer ones are cut, shorter ones padded |
| C154 | `C154_false` | `ToScalarBytes` fills an array but returns nil, so that converting back panics, for scalars and for openings |
| C168 | `C168_false` | `NewMEGaPublicKey`, `NewMEGaPrivateKey`, `PublicPoint` and `SecretScalar` share the point or scalar with the caller, so that changing it in place changes the key |
| C176 | `C176_false` | `New` and `Points` share the points with the caller, so that changing one in place changes the commitment and invalidates its openings |
| C179 | `C179_false` | `Deserialize` of openings drops the error of the inner decoding, so that an unreadable scalar becomes zero; neither decoder looks at the tag, empty byte strings panic, and coordinates off the curve are taken |
| C180 | `C180_false` | `ExpandMessageXmd` panics on negative lengths, `HashToField` and `HashToScalar` on negative numbers of values and on numbers for which `count * fieldLen` overflows, such as 2^60; `OutputByteString` and `OutputScalars` pass them on |
| C181 | `C181_false` | `AsBytes`, `X` and `Y` hand out the bytes of the encoded point, `Compress` returns the same bytes unless the encoding is uncompressed, and `key.New` keeps the slices of the caller |
| C182 | `C182_false` | a signature made for one path is valid under the key of every other path, for a hash that can be computed from it (a consequence of adding the tweak to the key; no message with this hash is known) |
| C183 | `C183_false` | `Lagrange.New` keeps the scalars of its caller and `Coefficients` hands out the internal ones; changing one in place changes every later interpolation |
| C195 | `C195_false`, `C195_false_kind` | one wrong opening among those provided makes `ReconstructShareFromOpenings` fail, however many are right; neither it nor `FromDealingsAndOpenings` checks them one by one (the test setup does, testutils/dealings.go:60-63) |
| C196 | `C196_false` | for dealings that were only verified publicly, the last dealer decides which commitment the transcript has: random dealings carry no proof that the dealer knows what it commits to, and the other proofs are about the constant term only; private verification by recipients is left to the caller |
| C197 | `C197_false` | a dealing is taken for one of every dealer whose index agrees modulo 2^32 (except that public verification of dealings that are not random also looks at the commitments of the dealer in earlier transcripts), and associated data of more than 255 bytes are not distinguished by any operation on dealings |
| C202 | `C202_false` | a dealing that is accepted for the resharing of an unmasked secret is accepted for the resharing of every other one whose commitment is wrapped, as transcripts store it |
| C204 | `C204_false` | the node index -1 has the place 0: commitments evaluated there give their constant term, `ReconstructShareFromOpenings` returns the dealt secret, a dealer of this index alone decides a reshared or multiplied transcript, and a signer of this index alone the signature |
