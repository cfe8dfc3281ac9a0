{"id": "C01", "title": "Scalar encoding round trip", "statement": "For every scalar s, Serialize(s) is exactly 32 bytes and Deserialize(Serialize(s)) returns s; conversely a 32-byte string is accepted iff its big-endian value is below the group order, and re-serialising the result gives back the same 32 bytes.", "quantifier": "all scalars and all 32-byte strings", "why_tests_cant": "2^256 inputs; tests sample a handful of random values.", "anchors": ["curve/k256_scalar.go:Deserialize", "curve/k256_scalar.go:Serialize", "curve/scalar.go:Deserialize", "common/utils.go:ReverseBytes"]}
{"id": "C02", "title": "Tagged scalar encoding round trip", "statement": "SerializeTagged(s) is the curve tag followed by the 32-byte encoding, and DeserializeTagged(SerializeTagged(s)) returns s.", "quantifier": "all scalars", "why_tests_cant": "2^256 inputs; tests sample a handful of random values.", "anchors": ["curve/k256_scalar.go:SerializeTagged", "curve/scalar.go:DeserializeTagged"]}
{"id": "C03", "title": "Scalar decoding accepts only 32-byte strings", "statement": "Scalar.Deserialize succeeds only on inputs of exactly 32 bytes, so an encoding is unique.", "quantifier": "all byte strings of any length", "why_tests_cant": "The set of byte strings is infinite; tests only feed outputs of Serialize.", "anchors": ["curve/scalar.go:Deserialize", "curve/k256_scalar.go:Deserialize"]}
{"id": "C04", "title": "Compressed point encoding round trip", "statement": "For every curve point P (including the identity), Serialize(P) is 33 bytes, Deserialize(Serialize(P)) returns P, and distinct points have distinct encodings.", "quantifier": "all points of the curve", "why_tests_cant": "About 2^256 points; square roots and parity selection must be right for each.", "anchors": ["curve/k256_point.go:Serialize", "curve/point.go:Deserialize", "curve/k256_point.go:decompress", "curve/encode.go"]}
{"id": "C05", "title": "Point decoding accepts only canonical encodings", "statement": "If Point.Deserialize(b) returns a point P without error then Serialize(P) = b; an x coordinate that is not on the curve or not below the field prime is rejected.", "quantifier": "all byte strings", "why_tests_cant": "Half of all 33-byte strings with prefix 2/3 are not on the curve and 2^32+977 prefixes are non-canonical; tests try one or two.", "anchors": ["curve/point.go:Deserialize", "curve/k256_point.go:decompress", "curve/k256_fe.go:Sqrt"]}
{"id": "C06", "title": "Tagged point encoding round trip", "statement": "Point.DeserializeTagged(SerializeTagged(P)) returns P for every point P.", "quantifier": "all points of the curve", "why_tests_cant": "No test calls it; the claim ranges over every point.", "anchors": ["curve/point.go:DeserializeTagged", "curve/k256_point.go:SerializeTagged"]}
{"id": "C07", "title": "Uncompressed serialisation works", "statement": "SerializeUncompressed(P) returns an encoding of P for every point P (in particular it does not panic).", "quantifier": "all points of the curve", "why_tests_cant": "Ranges over every point; no test calls it.", "anchors": ["curve/k256_point.go:SerializeUncompressed", "curve/k256_point.go:encodePoint"]}
{"id": "C08", "title": "Any-format point decoding is total and sound", "statement": "DeserializeAnyFormat / CBOR decoding of a point never panics and returns only points on the curve.", "quantifier": "all byte strings", "why_tests_cant": "Ranges over every attacker-supplied byte string.", "anchors": ["curve/k256_point.go:Deserialize", "curve/k256_point.go:UnmarshalCBOR", "curve/encode.go:FromBytes", "curve/encode.go:Coordinates"]}
{"id": "C09", "title": "CBOR round trip of points", "statement": "UnmarshalCBOR(MarshalCBOR(P)) restores P for every point P.", "quantifier": "all points of the curve", "why_tests_cant": "Ranges over every point; the identity is a corner no random test hits.", "anchors": ["curve/k256_point.go:MarshalCBOR", "curve/k256_point.go:UnmarshalCBOR"]}
{"id": "C10", "title": "CBOR round trip of scalars", "statement": "UnmarshalCBOR(MarshalCBOR(s)) restores s for every scalar s.", "quantifier": "all scalars", "why_tests_cant": "2^256 inputs; tests sample a handful of random values.", "anchors": ["curve/k256_scalar.go:MarshalCBOR", "curve/k256_scalar.go:UnmarshalCBOR"]}
{"id": "C11", "title": "Wide reduction", "statement": "Scalar.FromBytesWide(b) is the big-endian value of b modulo the group order for every b of at most 64 bytes (and panics for longer input); Field.FromBytesWide(b) is the big-endian value of the last 64 bytes modulo the field prime.", "quantifier": "all byte strings", "why_tests_cant": "Unbounded byte strings.", "anchors": ["curve/k256_scalar.go:FromWideBytes", "curve/k256_fe.go:FromBytesWide"]}
{"id": "C12", "title": "Node index embedding", "statement": "Scalar.FromNodeIndex maps distinct node indices to distinct scalars and never to zero for a non-negative index, so shares of distinct nodes are evaluations at distinct non-zero points.", "quantifier": "all 64-bit node indices", "why_tests_cant": "2^64 indices including wrap-around.", "anchors": ["curve/scalar.go:FromNodeIndex"]}
{"id": "C13", "title": "Fast multiplication by a node index", "statement": "MulByNodeIndex(P,i) equals ScalarMul(P, FromNodeIndex(i)) for every point and every index.", "quantifier": "all points and all 64-bit node indices", "why_tests_cant": "The bit loop has 2^64 inputs including wrap-around.", "anchors": ["curve/k256_point.go:MulByNodeIndex", "curve/scalar.go:FromNodeIndex"]}
{"id": "C14", "title": "Prime order group", "statement": "The points accepted by the library form a cyclic group of prime order equal to GroupOrder generated by G: every point is a unique scalar multiple of G below the order, and scalar arithmetic modulo GroupOrder is exactly exponent arithmetic.", "quantifier": "all points of the curve", "why_tests_cant": "A statement about all 2^256 points.", "anchors": ["curve/k256_scalar.go:GroupOrder", "curve/point.go:GeneratorG", "curve/k256_point.go:ScalarMul"]}
{"id": "C15", "title": "Pedersen commitments: hiding and binding", "statement": "For every commitment point and every candidate value there is exactly one mask opening it to that value; and any two different openings of one commitment reveal the discrete logarithm of H to base G.", "quantifier": "all points and scalars", "why_tests_cant": "Quantifies over all openings of a commitment.", "anchors": ["curve/point.go:Pedersen", "curve/point.go:GeneratorH"]}
{"id": "C16", "title": "High/low classification of scalars", "statement": "For every non-zero scalar exactly one of s and -s is high, zero is not high, and negating a high scalar makes it low.", "quantifier": "all scalars", "why_tests_cant": "2^256 inputs; tests sample a handful of random values.", "anchors": ["curve/k256_scalar.go:IsHigh", "curve/k256_scalar.go:Negate"]}
{"id": "C17", "title": "Hash to point always lands on the curve", "statement": "HashToPoint returns, for every message and domain separator, a point on secp256k1 and never an error.", "quantifier": "all messages, all domain separators, all hash functions", "why_tests_cant": "The exceptional cases of the map (zero denominators, non-squares) have negligible probability and are never hit by tests.", "anchors": ["curve/hash_to_curve.go:HashToCurveRo", "curve/hash_to_curve.go:sswu", "curve/hash_to_curve.go:sqrtRatio", "curve/hash_to_curve.go:sswuIsogenySecp256k1"]}
{"id": "C18", "title": "Hash to field and hash to scalar", "statement": "HashToField/HashToScalar(count) return exactly count values, each the reduction of its own 48-byte block of the expanded message, and fail (return no values) iff count*48 exceeds 8160; the failure is an error wherever count*48 is an int.", "quantifier": "all messages, domain separators and counts", "why_tests_cant": "Unbounded inputs and every boundary of count.", "anchors": ["curve/hash_to_curve.go:HashToField", "curve/hash_to_curve.go:HashToScalar"]}
{"id": "C19", "title": "expand_message_xmd conforms to RFC 9380", "statement": "ExpandMessageXmd(msg,dst,len) equals the RFC 9380 section 5.3.1 function for every 0<=len<=8160 (including the oversize-dst rule), its output has exactly len bytes, and it errors for larger len.", "quantifier": "all messages, all domain separators (any length), all lengths, all hash functions", "why_tests_cant": "Unbounded inputs.", "anchors": ["seed/xmd.go:ExpandMessageXmd"]}
{"id": "C20", "title": "expand_message_xmd separates domains", "statement": "For a fixed output length, distinct (message, domain separator) pairs with separators below 256 bytes are hashed through distinct first-block preimages; no pair can be confused with another.", "quantifier": "all pairs of messages and domain separators", "why_tests_cant": "Injectivity over unbounded strings.", "anchors": ["seed/xmd.go:ExpandMessageXmd", "seed/seed.go:NewSeed"]}
{"id": "C21", "title": "Random scalars", "statement": "Scalar.Random, whenever it returns, returns a canonical scalar equal to the first candidate below the group order in the generator's stream, and the generator's state afterwards is the one after exactly the consumed candidates.", "quantifier": "all generator states/streams", "why_tests_cant": "Rejections happen with probability 2^-128; tests never execute the retry path.", "anchors": ["curve/scalar.go:Random", "rand/chacha20.go:FillUint8"]}
{"id": "C22", "title": "Seed derivation", "statement": "Every way of making a seed yields exactly 32 bytes, is a deterministic function of its inputs, and deriving with two different labels from one seed hashes different preimages (as does the same label from two seeds).", "quantifier": "all seeds, labels and byte strings", "why_tests_cant": "Unbounded inputs.", "anchors": ["seed/seed.go"]}
{"id": "C23", "title": "Random-oracle transcript encoding is injective", "statement": "Two random oracles with different domain separators or different sets of named inputs never produce the same (domain separator, message) pair to be hashed; the byte strings, scalars and points they output are told apart by some hash function.", "quantifier": "all sets of named inputs", "why_tests_cant": "Injectivity over unbounded sets of strings.", "anchors": ["ro/ro.go:formRoInput", "ro/ro.go:AddInput"]}
{"id": "C24", "title": "Random-oracle outputs do not depend on insertion order", "statement": "Adding the same named inputs in any order gives the same outputs.", "quantifier": "all permutations of all input lists", "why_tests_cant": "Unbounded permutations.", "anchors": ["ro/ro.go:AddInput", "ro/ro.go:formRoInput"]}
{"id": "C25", "title": "Random-oracle input validation", "statement": "AddInput fails exactly on a duplicate name, an empty or over-long (>255) name or an over-long (>255) input; a failed call leaves the oracle unchanged, and output without inputs fails. The size recorded is the number of bytes hashed.", "quantifier": "all call sequences", "why_tests_cant": "All call histories.", "anchors": ["ro/ro.go:AddInput", "ro/ro.go:formRoInput"]}
{"id": "C26", "title": "Proofs are bound to their associated data", "statement": "The Fiat-Shamir challenge of each zero-knowledge proof hashes the associated data: for different associated data (and equal statements) the hashed transcripts differ.", "quantifier": "all associated-data strings", "why_tests_cant": "Tests use 32-byte strings only.", "anchors": ["zk/dlog.go:HashToChallenge", "zk/equal_opening.go:HashToChallenge", "zk/product.go:HashToChallenge", "ro/ro.go:AddInput"]}
{"id": "C27", "title": "Challenges of different proof systems are separated", "statement": "No transcript hashed for one of the three proof systems can equal a transcript hashed for another.", "quantifier": "all statements, commitments and associated data of all three systems", "why_tests_cant": "Quantifies over pairs of transcripts of different systems.", "anchors": ["zk/product.go:HashToChallenge", "zk/equal_opening.go:HashToChallenge", "zk/dlog.go:HashToChallenge"]}
{"id": "C28", "title": "Derivation index increment", "statement": "DerivationIndex.Next returns a byte string whose big-endian value is one larger; the length grows only if every byte was 255.", "quantifier": "all byte strings", "why_tests_cant": "Unbounded byte strings with arbitrarily long carry chains.", "anchors": ["key/key_derivation.go:Next"]}
{"id": "C29", "title": "Derived public key is the tweaked master key", "statement": "For every master key, chain code and path, the key returned by key derivation equals master + tweak*G for the tweak returned, so derived signatures verify under the derived key.", "quantifier": "all master keys, paths of any length, chain codes, all HMAC functions", "why_tests_cant": "Paths of unbounded length.", "anchors": ["key/key_derivation.go:DeriveTweak", "key/key_derivation.go:ckdpub", "sign/sign.go:DerivePublicKey"]}
{"id": "C30", "title": "Key derivation composes along paths", "statement": "Deriving along p1 followed by p2 is the same as deriving along p1 and then along p2 from the derived key and chain code; the empty path derives the master key itself.", "quantifier": "all pairs of paths", "why_tests_cant": "Unbounded paths.", "anchors": ["key/key_derivation.go:DeriveTweak"]}
{"id": "C31", "title": "BIP32 skips invalid children", "statement": "When the HMAC output of an index is not a canonical scalar (or gives the identity), the derivation result is that of the next index, as BIP32 prescribes.", "quantifier": "all keys, chain codes, indices and HMAC functions", "why_tests_cant": "Happens with probability 2^-127, never in a test.", "anchors": ["key/key_derivation.go:ckdpub"]}
{"id": "C32", "title": "Polynomial evaluation and arithmetic", "statement": "EvaluateAt computes sum c_i x^i; Add, Mul and MulScalar (with receiver = argument) are pointwise on evaluations; Equal holds iff the polynomials have the same coefficients up to trailing zeros.", "quantifier": "all polynomials of any degree and all scalars", "why_tests_cant": "Unbounded degrees.", "anchors": ["poly/poly.go:EvaluateAt", "poly/poly.go:Add", "poly/poly.go:Mul", "poly/poly.go:Equal"]}
{"id": "C33", "title": "MulScalar multiplies its argument", "statement": "p.MulScalar(q,s) returns s*q whatever p held before, like every other operation of the package.", "quantifier": "all polynomials p, q and scalars s", "why_tests_cant": "Quantifies over the previous contents of the receiver.", "anchors": ["poly/poly.go:MulScalar"]}
{"id": "C34", "title": "Interpolation is sound", "statement": "If Interpolate(samples) returns a polynomial, it has at most len(samples) coefficients and passes through every sample, hence it is the unique polynomial of that size doing so.", "quantifier": "all sample lists of any length", "why_tests_cant": "Unbounded sample lists.", "anchors": ["poly/poly.go:Interpolate"]}
{"id": "C35", "title": "Interpolation is complete", "statement": "Interpolate succeeds for every list of samples with pairwise distinct x coordinates.", "quantifier": "all sample lists with distinct x", "why_tests_cant": "Only degenerate data (a sample on the interpolant of the previous ones, followed by another) fails; random tests never produce it.", "anchors": ["poly/poly.go:Interpolate", "poly/poly.go:MulScalar"]}
{"id": "C36", "title": "Lagrange interpolation", "statement": "For any non-empty list of distinct node indices, Lagrange.AtValue(v) returns coefficients with which InterpolateScalar/InterpolatePoint of the values of any polynomial with at most that many coefficients gives the polynomial's value at v (in the exponent for points).", "quantifier": "all index lists, all values v, all polynomials", "why_tests_cant": "Unbounded lists and degrees.", "anchors": ["poly/lagrange.go:AtValue", "poly/lagrange.go:InterpolateScalar", "poly/lagrange.go:InterpolatePoint"]}
{"id": "C37", "title": "Lagrange input validation", "statement": "AtValue fails exactly on an empty list or a list with duplicates; Interpolate* fails exactly on a length mismatch.", "quantifier": "all index lists and value lists", "why_tests_cant": "Unbounded lists.", "anchors": ["poly/lagrange.go:AtValue", "poly/lagrange.go:checkForDuplicates"]}
{"id": "C38", "title": "Sharing secrecy", "statement": "For any fewer-than-threshold set of distinct nodes, any observed shares and any candidate secret there is exactly one sharing polynomial of threshold-many coefficients (when one fewer than threshold) giving those shares and that secret.", "quantifier": "all thresholds, sets of nodes, shares and secrets", "why_tests_cant": "Quantifies over all polynomials.", "anchors": ["poly/poly.go:RandomWithConstant", "poly/poly.go:EvaluateAt"]}
{"id": "C39", "title": "Commitment opening checks are exact", "statement": "For a commitment created from a polynomial (pair) with at most num coefficients, CheckOpening(i, o) succeeds exactly for the polynomial's value (pair) at node i (for Pedersen: exactly for the value pairs with the right commitment point).", "quantifier": "all polynomials, node indices and openings", "why_tests_cant": "Unbounded degrees and all openings.", "anchors": ["poly/commitment.go:Create", "poly/commitment.go:CheckOpening", "poly/commitment.go:evaluateAt"]}
{"id": "C40", "title": "A created commitment commits to the whole polynomial", "statement": "Whenever Create(poly,num) returns a commitment, its evaluation at every node is the commitment to the polynomial's evaluation.", "quantifier": "all polynomials and all num", "why_tests_cant": "Needs a polynomial with interior zero coefficients, which random tests never generate.", "anchors": ["poly/commitment.go:Create", "poly/poly.go:NonZeroCoefficients"]}
{"id": "C41", "title": "Commitment byte representation is injective", "statement": "StableRepresentation determines the commitment: different kinds or different point lists give different byte strings; it exists exactly for commitments with at least one point and panics on an empty one.", "quantifier": "all commitments", "why_tests_cant": "Injectivity over unbounded lists.", "anchors": ["poly/commitment.go:StableRepresentation"]}
{"id": "C42", "title": "Commitment equality", "statement": "Equal reports whether two commitments are the same commitment, including their kind.", "quantifier": "all pairs of commitments", "why_tests_cant": "All pairs.", "anchors": ["poly/commitment.go:Equal"]}
{"id": "C43", "title": "Opening serialisation round trip", "statement": "Deserialize(Serialize(o)) restores the opening o for simple and Pedersen openings.", "quantifier": "all openings", "why_tests_cant": "All openings.", "anchors": ["poly/commitment.go:Serialize", "poly/commitment.go:Deserialize"]}
{"id": "C44", "title": "Commitment serialisation round trip", "statement": "Deserialize(Serialize(c)) restores the commitment c for simple and Pedersen commitments.", "quantifier": "all commitments", "why_tests_cant": "All commitments, including those containing the identity.", "anchors": ["poly/commitment.go:polynomialCommitment.Deserialize", "poly/commitment.go:Serialize"]}
{"id": "C45", "title": "Dlog-equivalence proofs: completeness", "statement": "A proof created by Create verifies for the statement it was created for, for every witness, bases, seed and associated data.", "quantifier": "all inputs, all hash functions and generators", "why_tests_cant": "Unbounded inputs.", "anchors": ["zk/dlog.go:Create", "zk/dlog.go:Verify"]}
{"id": "C46", "title": "Equal-openings proofs: completeness", "statement": "A created proof verifies.", "quantifier": "all inputs, all hash functions and generators", "why_tests_cant": "Unbounded inputs.", "anchors": ["zk/equal_opening.go:Create", "zk/equal_opening.go:Verify"]}
{"id": "C47", "title": "Product proofs: completeness", "statement": "A proof created for values with product = lhs*rhs verifies, and for product != lhs*rhs it is rejected unless its challenge is zero or is also the hash of the transcript with a different second commitment.", "quantifier": "all inputs, all hash functions and generators", "why_tests_cant": "Unbounded inputs.", "anchors": ["zk/product.go:Create", "zk/product.go:Verify"]}
{"id": "C48", "title": "Soundness of the three proof systems", "statement": "If the verification equation holds for a false statement then the challenge equals the single value fixed by the statement and the commitments; equivalently two accepting transcripts with one commitment and different challenges give a witness.", "quantifier": "all statements, commitments, challenges and responses", "why_tests_cant": "Quantifies over every adversarial proof.", "anchors": ["zk/dlog.go:Verify", "zk/equal_opening.go:Verify", "zk/product.go:Verify"]}
{"id": "C49", "title": "MEGa decryption inverts encryption (single)", "statement": "For every plaintext list and key list of equal length, every recipient decrypts the ciphertext to their own plaintext and the proof of possession verifies.", "quantifier": "all numbers of recipients, plaintexts, keys, dealer indices, associated data, hash functions", "why_tests_cant": "Unbounded recipients.", "anchors": ["mega/ciphertext.go:EncryptCiphertextSingle", "mega/ciphertext.go:Decrypt", "mega/mega.go"]}
{"id": "C50", "title": "MEGa decryption inverts encryption (pair)", "statement": "Same for pairs of plaintexts.", "quantifier": "all numbers of recipients, plaintexts, keys, dealer indices, associated data, hash functions", "why_tests_cant": "Unbounded recipients.", "anchors": ["mega/ciphertext.go:EncryptCiphertextPair", "mega/ciphertext.go:Decrypt"]}
{"id": "C51", "title": "Decryption out of range", "statement": "Decrypting with a recipient index outside the ciphertext fails with an error (and does not panic).", "quantifier": "all indices and ciphertexts", "why_tests_cant": "All 2^64 indices.", "anchors": ["mega/ciphertext.go:DecryptFromSharedSecret"]}
{"id": "C52", "title": "Encryption input validation", "statement": "Encryption fails when plaintext and key counts differ, and otherwise produces one ciphertext entry per recipient.", "quantifier": "all lists", "why_tests_cant": "Unbounded lists.", "anchors": ["mega/ciphertext.go:checkPlaintexts", "mega/ciphertext.go:CheckValidity"]}
{"id": "C53", "title": "Forged proof of possession", "statement": "A ciphertext whose ephemeral key and PoP key have different discrete logarithms passes VerifyPop only if the challenge hits the single value fixed by statement and commitments.", "quantifier": "all ciphertexts", "why_tests_cant": "Quantifies over adversarial ciphertexts.", "anchors": ["mega/mega.go:VerifyPop"]}
{"id": "C54", "title": "Honest dealings verify", "statement": "A dealing created by NewIDkgDealingInternal from well-formed shares passes PubliclyVerify for the matching transcript operation and PrivateVerify for every recipient.", "quantifier": "all share kinds, thresholds, recipient sets, seeds, hash functions", "why_tests_cant": "Unbounded recipients and thresholds.", "anchors": ["dealings/dealings.go:NewIDkgDealingInternal", "dealings/dealings.go:PubliclyVerify", "dealings/dealings.go:PrivateVerify"]}
{"id": "C55", "title": "Dealing creation validates its threshold", "statement": "Creation fails with an error if threshold is below 1 or above the number of recipients.", "quantifier": "all integers thresholds and recipient lists", "why_tests_cant": "All integers.", "anchors": ["dealings/dealings.go:NewIDkgDealingInternal"]}
{"id": "C56", "title": "Public verification rejects malformed dealings without panicking", "statement": "PubliclyVerify returns an error, and never panics, on dealings with the wrong commitment kind or size, the wrong ciphertext kind or size, or a missing/unexpected proof.", "quantifier": "all dealings and all transcript operations", "why_tests_cant": "Quantifies over adversarial dealings.", "anchors": ["dealings/dealings.go:PubliclyVerify"]}
{"id": "C57", "title": "Accepted dealings carry consistent proofs", "statement": "If PubliclyVerify accepts, the commitment has threshold-many points of the kind the operation requires, the ciphertext has one entry per recipient, and the zero-knowledge proof statement is about the previous transcripts' commitments evaluated at the dealer.", "quantifier": "all dealings, operations and histories", "why_tests_cant": "Quantifies over adversarial dealings.", "anchors": ["dealings/dealings.go:PubliclyVerify", "dealings/zk_proof.go"]}
{"id": "C58", "title": "Random transcripts sum", "statement": "For a random transcript the combined commitment is the pointwise sum of the dealings' commitments and the sum of every node's openings opens it.", "quantifier": "all numbers of dealings", "why_tests_cant": "Unbounded dealings.", "anchors": ["dealings/transcript.go:NewTranscriptInternal", "dealings/commitment.go:CombineOpenings"]}
{"id": "C59", "title": "Resharing preserves the secret", "statement": "If at least threshold-many dealers reshare their shares of a transcript, the new combined commitment's constant term is (a commitment to) the old secret, for any new threshold.", "quantifier": "all thresholds, dealer sets and polynomials", "why_tests_cant": "Unbounded dealers, any subset.", "anchors": ["dealings/transcript.go:NewTranscriptInternal", "dealings/transcript.go:CombineCommitmentsViaInterpolation"]}
{"id": "C60", "title": "Product transcripts multiply", "statement": "With at least len(L)+len(R)-1 dealers each dealing the product of their shares, the new constant term commits to the product of the two secrets.", "quantifier": "all thresholds, dealer sets and polynomials", "why_tests_cant": "Unbounded dealers.", "anchors": ["dealings/transcript.go:NewTranscriptInternal"]}
{"id": "C61", "title": "Insufficient dealings are rejected", "statement": "Transcript creation fails if fewer dealings are given than the operation requires or their commitments have the wrong kind or length.", "quantifier": "all sets of dealings and operations", "why_tests_cant": "Unbounded sets.", "anchors": ["dealings/transcript.go:NewTranscriptInternal"]}
{"id": "C62", "title": "Transcript operations are comparable", "statement": "Compare distinguishes transcript operations of different kinds.", "quantifier": "all pairs of operations", "why_tests_cant": "All pairs.", "anchors": ["dealings/transcript_operation.go:Compare"]}
{"id": "C63", "title": "Node shares are consistent", "statement": "If FromDealings succeeds its result opens the transcript's combined commitment at the node's index.", "quantifier": "all sets of dealings, honest or not", "why_tests_cant": "Quantifies over adversarial dealings.", "anchors": ["dealings/commitment.go:FromDealings", "dealings/commitment.go:CombineOpenings"]}
{"id": "C64", "title": "Share reconstruction from openings", "statement": "From any reconstruction-threshold many correct openings of distinct openers, ReconstructShareFromOpenings returns exactly the opening the dealing commits to for the accused node, independent of which openers are used.", "quantifier": "all thresholds and opener subsets", "why_tests_cant": "All subsets.", "anchors": ["dealings/transcript.go:ReconstructShareFromOpenings"]}
{"id": "C65", "title": "Complaints are raised exactly for bad dealings", "statement": "GenerateComplaints yields a complaint for exactly the dealings whose share does not decrypt to a consistent opening, and fails if there is none.", "quantifier": "all sets of dealings", "why_tests_cant": "Quantifies over adversarial dealings.", "anchors": ["complaints/complaints.go:GenerateComplaints"]}
{"id": "C66", "title": "A justified complaint is accepted", "statement": "A complaint generated by the receiver against a dealing with valid PoP but inconsistent share verifies for everyone.", "quantifier": "all dealings, keys, seeds", "why_tests_cant": "Quantifies over adversarial dealings.", "anchors": ["complaints/complaints.go:NewComplaintInternal", "complaints/complaints.go:Verify"]}
{"id": "C67", "title": "An unjustified complaint is rejected", "statement": "No complaint carrying the true shared secret against a consistent dealing verifies; with a false shared secret the proof can only pass if the challenge hits one value.", "quantifier": "all complaints", "why_tests_cant": "Quantifies over adversarial complaints.", "anchors": ["complaints/complaints.go:Verify"]}
{"id": "C68", "title": "Threshold signatures verify", "statement": "Combining honest signature shares of any at-least-threshold set of nodes gives a signature that passes Verify, and satisfies the ECDSA verification equation for the derived public key, whenever r, s and the blinded nonce are non-zero.", "quantifier": "all keys, nonces, messages, paths, thresholds and signer subsets", "why_tests_cant": "Unbounded parameters.", "anchors": ["sign/combined_sig.go:New", "sign/combined_sig.go:Verify", "sign/share.go:New"]}
{"id": "C69", "title": "Signature shares are verified", "statement": "Share.Verify rejects every share whose values do not open the transcripts' combined commitments.", "quantifier": "all shares", "why_tests_cant": "Quantifies over adversarial shares.", "anchors": ["sign/share.go:Verify"]}
{"id": "C70", "title": "Signatures are low-S", "statement": "Every signature produced by combination has a non-high s, and Verify rejects the high-s twin.", "quantifier": "all signatures", "why_tests_cant": "2^256 inputs; tests sample a handful of random values.", "anchors": ["sign/combined_sig.go:New", "sign/combined_sig.go:Verify"]}
{"id": "C71", "title": "Signature is independent of the signer subset", "statement": "Any two at-least-threshold sets of honest shares combine to the same signature.", "quantifier": "all pairs of signer subsets", "why_tests_cant": "All pairs of subsets.", "anchors": ["sign/combined_sig.go:New"]}
{"id": "C72", "title": "Too few shares", "statement": "Combination fails if fewer than threshold shares are given.", "quantifier": "all share sets and thresholds", "why_tests_cant": "All share sets.", "anchors": ["sign/combined_sig.go:New"]}
{"id": "C73", "title": "Verify accepts only ECDSA signatures", "statement": "If Verify accepts (r,s) then r,s are non-zero, s is low and the ECDSA equation holds for the message hash under the derived key.", "quantifier": "all signatures, messages, keys", "why_tests_cant": "Quantifies over adversarial signatures.", "anchors": ["sign/combined_sig.go:Verify"]}
{"id": "C74", "title": "Commitment creation accepts exactly by coefficient count", "statement": "Create(poly,num) succeeds exactly when the number of non-zero coefficients of the polynomial (for Pedersen: of each of the two polynomials) is at most num; otherwise it returns an error, and it never panics.", "quantifier": "all polynomials and all num, including negative ones", "why_tests_cant": "All polynomials and sizes.", "anchors": ["poly/commitment.go:Create"]}
{"id": "C75", "title": "The constant term commits to the value at zero", "statement": "ConstantTerm of a created commitment (num at least 1) is the commitment to the polynomial's (pair's) value at zero.", "quantifier": "all polynomials and all num >= 1", "why_tests_cant": "Unbounded degrees.", "anchors": ["poly/commitment.go:ConstantTerm", "poly/commitment.go:Create"]}
{"id": "C76", "title": "VerifyIs and ReturnOpeningIfConsistent decide exactly", "statement": "VerifyIs of a commitment with a point succeeds exactly for the commitment's own kind and curve and is an error otherwise, and of an empty one it panics; ReturnOpeningIfConsistent returns exactly the opening it was given when CheckOpening accepts it, an error when CheckOpening rejects it, and panics when it panics.", "quantifier": "all commitments, kinds, curves, node indices and openings", "why_tests_cant": "All combinations, including rejected ones.", "anchors": ["poly/commitment.go:VerifyIs", "poly/commitment.go:ReturnOpeningIfConsistent"]}
{"id": "C77", "title": "Encryption pads are bound to their context", "statement": "Pads derived by megaHashToScalars for contexts that differ in ciphertext kind, dealer index, recipient index, associated data, public key, ephemeral key or shared secret come from different hash inputs.", "quantifier": "all pairs of contexts", "why_tests_cant": "All pairs of contexts.", "anchors": ["mega/mega.go:megaHashToScalars"]}
{"id": "C78", "title": "The proof-of-possession base is bound to its context", "statement": "ComputePopBase hashes different inputs for contexts that differ in ciphertext kind, associated data, dealer index or ephemeral key.", "quantifier": "all pairs of contexts", "why_tests_cant": "All pairs of contexts.", "anchors": ["mega/mega.go:ComputePopBase"]}
{"id": "C79", "title": "DecryptAndCheck returns only consistent openings", "statement": "DecryptAndCheck returns an opening exactly when decryption succeeds and the decrypted value opens the commitment at the receiver's index, and then returns the decrypted value.", "quantifier": "all ciphertexts, commitments, keys, indices", "why_tests_cant": "Adversarial ciphertexts.", "anchors": ["mega/ciphertext.go:DecryptAndCheck"]}
{"id": "C80", "title": "Ciphertext VerifyIs decides exactly", "statement": "VerifyIs of a ciphertext succeeds exactly for its own kind and curve.", "quantifier": "all ciphertexts, kinds, curves", "why_tests_cant": "All combinations.", "anchors": ["mega/ciphertext.go:VerifyIs"]}
{"id": "C81", "title": "MEGa key pairs", "statement": "GenKeypair returns a public key equal to the private key times the generator; public and private keys survive serialisation and valid public keys pass VerifyMegaPublicKey.", "quantifier": "all seeds, generators and keys", "why_tests_cant": "All keys.", "anchors": ["mega/key.go"]}
{"id": "C82", "title": "Invalid public keys are refused", "statement": "VerifyMegaPublicKey accepts only the serialisation of a point other than the identity.", "quantifier": "all byte strings", "why_tests_cant": "All byte strings.", "anchors": ["mega/key.go:VerifyMegaPublicKey"]}
{"id": "C83", "title": "Resharing an unmasked transcript is bound to it", "statement": "If PubliclyVerify accepts a dealing for a resharing of an unmasked transcript, the dealing's constant term is the previous commitment evaluated at the dealer.", "quantifier": "all dealings, previous commitments (plain or wrapped) and dealers", "why_tests_cant": "Quantifies over adversarial dealings.", "anchors": ["dealings/dealings.go:PubliclyVerify"]}
{"id": "C84", "title": "Private verification decides exactly", "statement": "PrivateVerify accepts exactly the dealings whose ciphertext for the recipient decrypts to an opening of the dealing's commitment at the recipient's index.", "quantifier": "all dealings, keys, recipients, hash functions", "why_tests_cant": "Quantifies over adversarial dealings.", "anchors": ["dealings/dealings.go:PrivateVerify"]}
{"id": "C85", "title": "Contents of a dealing", "statement": "A created dealing commits to a polynomial with exactly threshold-many coefficients whose constant term is the value being dealt (the product for a product dealing), with one ciphertext per recipient, and recipient i decrypts to the value of the polynomial at i+1.", "quantifier": "all shares, thresholds, recipients, seeds, hash functions", "why_tests_cant": "Unbounded recipients and thresholds.", "anchors": ["dealings/dealings.go:NewIDkgDealingInternal"]}
{"id": "C86", "title": "Shares from openings can be dealt", "statement": "Secret.From turns the openings of the previous transcripts into the shares of the matching operation, which NewIDkgDealingInternal accepts; inconsistent combinations are an error.", "quantifier": "all openings", "why_tests_cant": "All openings.", "anchors": ["dealings/secret_shares.go:From"]}
{"id": "C87", "title": "Commitment evaluation", "statement": "EvaluateAt of a non-empty commitment returns the sum of its points weighted with the powers of the node's place.", "quantifier": "all commitments and node indices", "why_tests_cant": "Unbounded commitments.", "anchors": ["poly/commitment.go:evaluateAt"]}
{"id": "C88", "title": "Shares are available", "statement": "A node that can open every dealing of a transcript obtains a share from FromDealings, whoever the dealers are, if the dealings carry the kind of commitment that belongs to the operation.", "quantifier": "all dealings, honest or not", "why_tests_cant": "All dealings of malicious dealers.", "anchors": ["dealings/commitment.go:FromDealings", "dealings/commitment.go:CombineOpenings", "dealings/transcript.go:NewTranscriptInternal"]}
{"id": "C89", "title": "Openings from the wire reconstruct", "statement": "Correct openings that were received as bytes (CommitmentOpeningBytes.ToCommitmentOpening, Deserialize) can be used by ReconstructShareFromOpenings.", "quantifier": "all openings", "why_tests_cant": "Tests pass openings in memory.", "anchors": ["dealings/transcript.go:ReconstructShareFromOpenings", "poly/commitment.go:ToCommitmentOpening"]}
{"id": "C90", "title": "Transcripts have a commitment", "statement": "NewTranscriptInternal without an error returns a transcript whose combined commitment is not nil.", "quantifier": "all operations and dealings", "why_tests_cant": "All operations, also ones from other packages.", "anchors": ["dealings/transcript.go:NewTranscriptInternal", "dealings/transcript_operation.go:ConstantTerm"]}
{"id": "C91", "title": "Public image of a share", "statement": "The transcript's EvaluateAt at a node's index is the public image of the share the node obtains from FromDealings.", "quantifier": "all dealings, honest or not", "why_tests_cant": "All dealings.", "anchors": ["dealings/transcript_operation.go:EvaluateAt", "dealings/commitment.go:FromDealings"]}
{"id": "C92", "title": "Complaints are bound to their context", "statement": "The associated data of a complaint's proof differ (as hash inputs) whenever associated data, receiver index, dealer index or receiver key differ, so that a complaint about one dealer or by one receiver cannot be replayed for another.", "quantifier": "all indices, keys, associated data", "why_tests_cant": "Collisions between contexts are invisible to tests that only use small indices.", "anchors": ["complaints/complaints.go:createProofAssocData"]}
{"id": "C93", "title": "Every complaint has its own seed", "statement": "Complaints against different dealers are made from seeds derived under different labels.", "quantifier": "all node indices", "why_tests_cant": "Quantifies over all pairs of 64-bit indices.", "anchors": ["complaints/complaints.go:GenerateComplaints"]}
{"id": "C94", "title": "Verifying a complaint never panics", "statement": "Verify returns or gives an error for every complaint, dealing and index.", "quantifier": "all complaints, dealings, indices", "why_tests_cant": "Quantifies over adversarial dealings and indices.", "anchors": ["complaints/complaints.go:Verify"]}
{"id": "C95", "title": "Every generated complaint verifies", "statement": "Every complaint that GenerateComplaints returns verifies against its dealing under the receiver's key.", "quantifier": "all sets of dealings", "why_tests_cant": "Quantifies over adversarial dealings.", "anchors": ["complaints/complaints.go:GenerateComplaints", "complaints/complaints.go:Verify"]}
{"id": "C96", "title": "The derived public key is the end of the BIP32 chain", "statement": "DerivePublicKey of an encoded master key returns the encoding of the key, and the chain key, that the sequence of BIP32 public derivation steps along the path ends in, or does not return at all.", "quantifier": "all keys, paths and hash functions", "why_tests_cant": "Unbounded paths; hash functions are arbitrary.", "anchors": ["sign/sign.go:DerivePublicKey", "key/key_derivation.go:DeriveTweak"]}
{"id": "C97", "title": "Invalid master keys are refused", "statement": "DerivePublicKey returns an error for every byte string that is not the encoding of a point other than the identity.", "quantifier": "all byte strings", "why_tests_cant": "2^264 inputs and more; tests use keys made by the library.", "anchors": ["sign/sign.go:DerivePublicKey"]}
{"id": "C98", "title": "The nonce randomiser is bound to its context", "statement": "Derivations of the randomiser that differ in randomness, message hash, shared nonce or key tweak never feed the same input to the hash function.", "quantifier": "all pairs of derivations", "why_tests_cant": "Quantifies over all pairs of inputs.", "anchors": ["sign/sign.go:DeriveRho"]}
{"id": "C99", "title": "Shares beyond the threshold do not matter", "statement": "Given threshold many good shares, combination gives the same signature whatever further shares follow.", "quantifier": "all share maps", "why_tests_cant": "Quantifies over adversarial shares.", "anchors": ["sign/combined_sig.go:New"]}
{"id": "C100", "title": "Message hashes become numbers as in SEC 1", "statement": "The number signed is the leftmost 256 bits of the message hash, reduced modulo the group order.", "quantifier": "all message hashes", "why_tests_cant": "Tests only use 32-byte hashes.", "anchors": ["sign/sign.go:ConvertHashToInteger"]}
{"id": "C101", "title": "Signing functions do not panic", "statement": "Making a share, combining shares and verifying a signature return a result or an error for all message hashes, thresholds and shares.", "quantifier": "all inputs", "why_tests_cant": "Quantifies over all inputs.", "anchors": ["sign/share.go:New", "sign/combined_sig.go:New", "sign/combined_sig.go:Verify"]}
{"id": "C102", "title": "Honest shares open combinations of public commitments", "statement": "A signature share made from openings of the three masked transcripts opens, at the node's index, the linear combinations of the transcripts' commitments that a verifier can compute.", "quantifier": "all transcripts, openings, nodes and messages", "why_tests_cant": "Quantifies over all transcripts and nodes.", "anchors": ["sign/share.go:New"]}
{"id": "C104", "title": "Unusable nonces are reported", "statement": "Combination returns an error if the resulting s or the combined denominator is zero.", "quantifier": "all share sets", "why_tests_cant": "Happens with probability 2^-256 for random nonces.", "anchors": ["sign/combined_sig.go:New"]}
{"id": "C105", "title": "At most one signature verifies", "statement": "For given message, randomness, path and transcripts, Verify accepts at most one signature.", "quantifier": "all signatures", "why_tests_cant": "Quantifies over all pairs of signatures.", "anchors": ["sign/combined_sig.go:Verify"]}
{"id": "C103", "title": "Random rounds share one pair of polynomials", "statement": "When a random protocol round returns, its transcript is a Pedersen commitment to a pair of polynomials with threshold coefficients each, and the opening of node i is the pair of their values at i+1, whatever dealings were damaged.", "quantifier": "all setups, seeds, numbers of dealers, numbers of damaged dealings", "why_tests_cant": "Damaged recipients, complaints and reconstruction are chosen at random in the tests; the claim is for every choice.", "anchors": ["testutils/protocol_round.go:Random", "testutils/dealings.go:CreateDealings", "testutils/dealings.go:OpenDealings"]}
{"id": "C106", "title": "Resharing keeps the secret", "statement": "When a resharing round (of a masked or an unmasked secret) returns, the nodes hold shares of a polynomial with threshold coefficients and the same constant term, the transcript commits to it without mask, and at least as many dealers took part as the old threshold.", "quantifier": "all setups, old and new thresholds and node sets, numbers of dealers and damaged dealings", "why_tests_cant": "Tests compare constant terms for a few dealer counts.", "anchors": ["testutils/protocol_round.go:ReshareOfMasked", "testutils/protocol_round.go:ReshareOfUnmasked"]}
{"id": "C107", "title": "Product rounds multiply", "statement": "When a multiplication round returns, the nodes hold masked shares of the product of the two secrets, and at least t+t'-1 dealers took part.", "quantifier": "all setups, thresholds, node sets, numbers of dealers and damaged dealings", "why_tests_cant": "Tests check a·d = b·c for one size.", "anchors": ["testutils/protocol_round.go:Multiply"]}
{"id": "C108", "title": "From key generation to a valid signature", "statement": "After NewSignatureProtocolSetup returns, any part of the generated signature shares with at least threshold entries combines to a signature which, unless r or s is zero, passes VerifySignature and is a valid ECDSA signature of the message under the derived public key; fewer shares give an error.", "quantifier": "all seeds, sizes, thresholds, numbers of damaged dealings, messages, paths, share subsets", "why_tests_cant": "One size and random subsets are tested.", "anchors": ["testutils/signature_protocol_setup.go:NewSignatureProtocolSetup", "testutils/signature_protocol_setup.go:GenerateSignature", "testutils/signature_protocol_setup.go:VerifySignature"]}
{"id": "C109", "title": "VerifyCommitmentOpenings accepts exactly openings of the commitment", "statement": "VerifyCommitmentOpenings accepts the openings of a round against its commitment or transcript, and rejects lists of openings that do not open the commitment at their nodes.", "quantifier": "all commitments of both kinds, all lists of openings, all numbers of nodes", "why_tests_cant": "Tests call it only on the openings and the commitment of honest rounds.", "anchors": ["testutils/protocol_round.go:VerifyCommitmentOpenings"]}
{"id": "C110", "title": "Protocol runs finish", "statement": "With enough dealers and nodes (t dealers for resharings, t+t'-1 for products, 2t nodes if dealings are damaged) every round and the whole signature setup return without an error, however many dealings get damaged; they can only hang or panic if the generators reject forever, never choose some node, or damage a dealing by adding zero. Every node then gets a signature share, unless key derivation does not end.", "quantifier": "all key streams, seeds, thresholds, sizes up to 2^32 nodes, numbers of damaged dealings, messages and paths", "why_tests_cant": "Tests run a few sizes with one generator.", "anchors": ["testutils/protocol_round.go:Random", "testutils/protocol_round.go:ReshareOfMasked", "testutils/protocol_round.go:ReshareOfUnmasked", "testutils/protocol_round.go:Multiply", "testutils/signature_protocol_setup.go:NewSignatureProtocolSetup", "testutils/signature_protocol_setup.go:GenerateShares"]}
{"id": "C111", "title": "Second generator is a hash", "statement": "With SHA-256 as the hash, Point.HashToPoint(\"h\", \"ic-crypto-tecdsa-secp256k1-generator-h\") returns exactly the point that GeneratorH decodes from its constant, and the constant is that point's serialization.", "quantifier": "no variables: the deployed constants and SHA-256", "why_tests_cant": "TestGeneratorHHasExpectedValue checks the same equality by running the code; here it is checked on the model by the kernel.", "anchors": ["curve/point.go:GeneratorH", "curve/hash_to_curve.go:HashToCurveRo", "seed/xmd.go:ExpandMessageXmd"]}
{"id": "C112", "title": "Curve functions that return new objects leave their arguments alone", "statement": "Scalar.Clone, Point.Clone, MulByNodeIndex, MulPoints, Pedersen and MulByG return a pointer to a new object holding the result; no object that existed before the call changes, also when several arguments are the same pointer. Writing to a clone never shows in the original, nor the other way round.", "quantifier": "all memories, all argument pointers in use (any of them equal), all node indices", "why_tests_cant": "Tests compare results, not what else changed; with few exceptions they pass different objects for different arguments.", "anchors": ["curve/k256_scalar.go:Clone", "curve/k256_point.go:Clone", "curve/k256_point.go:MulByNodeIndex", "curve/point.go:MulPoints", "curve/point.go:Pedersen", "curve/point.go:MulByG"]}
{"id": "C113", "title": "Polynomial code is correct under aliasing", "statement": "Add, Mul and MulScalar set the receiver to the right result and change nothing else, also when the receiver is one of the arguments, the arguments are the same polynomial, or polynomials share coefficient pointers. Coeff, EvaluateAt and Interpolate change nothing that existed and return new objects holding the right result, also when they return an error.", "quantifier": "all memories, all polynomials and samples in use with any sharing between them, all sizes", "why_tests_cant": "A test can only try a few patterns of sharing, and does not look at objects other than the result.", "anchors": ["poly/poly.go:Add", "poly/poly.go:Mul", "poly/poly.go:MulScalar", "poly/poly.go:Coeff", "poly/poly.go:EvaluateAt", "poly/poly.go:Interpolate"]}
{"id": "C114", "title": "Lagrange and commitment code leaves its arguments alone", "statement": "AtValue, AtZero, InterpolatePoint, InterpolateScalar, and Create, Clone, ConstantTerm and EvaluateAt of commitments compute what they compute on values, return new objects (no two of them the same), and change no object that existed, whether they succeed, return an error or panic, and however their arguments share objects.", "quantifier": "all memories, all arguments in use with any sharing between them, all sizes", "why_tests_cant": "A test can only try a few patterns of sharing, and does not look at objects other than the result.", "anchors": ["poly/lagrange.go:AtValue", "poly/lagrange.go:AtZero", "poly/lagrange.go:InterpolatePoint", "poly/lagrange.go:InterpolateScalar", "poly/commitment.go:Create", "poly/commitment.go:Clone", "poly/commitment.go:ConstantTerm", "poly/commitment.go:evaluateAt"]}
{"id": "C115", "title": "A dealer's random choices are independent", "statement": "As long as the keys of the generators derived from the dealer's seed differ, NewIDkgDealingInternal can produce, for every choice of coefficients, ephemeral secret, proof-of-possession nonce and proof nonces, the dealing made with exactly these choices; no choice is a function of another.", "quantifier": "all seeds, hash functions, operations, thresholds and choices", "why_tests_cant": "A test sees single dealings; a nonce reused from the ephemeral key verifies in every test.", "anchors": ["dealings/dealings.go:NewIDkgDealingInternal", "mega/ciphertext.go:EncryptCiphertextSingle", "mega/ciphertext.go:EncryptCiphertextPair", "zk/equal_opening.go:Create", "zk/product.go:Create"]}
{"id": "C116", "title": "Shares are recovered after complaints", "statement": "A node that for each dealing of a transcript either opens it or is given enough correct openings of other nodes gets a share from FromDealingsAndOpenings; the share opens the transcript at the node's own index, and if the openings are the values of the committed polynomials it is the very share the node would have got from dealings it can open.", "quantifier": "all dealings, honest or not, all sets of provided openings", "why_tests_cant": "All subsets of openers and complained-against dealings.", "anchors": ["dealings/commitment.go:FromDealingsAndOpenings", "dealings/transcript.go:ReconstructShareFromOpenings"]}
{"id": "C117", "title": "Nonce transcripts must be unmasked", "statement": "DeriveRho accepts a nonce transcript only if it is the result of an interpolation with an unmasked commitment; otherwise DeriveRho, share creation, share verification, combination and signature verification return an error (signature verification with a message hash of more than 64 bytes panics instead).", "quantifier": "all transcripts, messages, paths and shares", "why_tests_cant": "All transcripts.", "anchors": ["sign/sign.go:DeriveRho", "sign/share.go:NewThresholdEcdsaSigShareInternal", "sign/combined_sig.go:NewThresholdEcdsaCombinedSigInternal"]}
{"id": "C118", "title": "Hashing to the curve is that of RFC 9380", "statement": "For every hash function with 32-byte digests, HashToCurveRo returns the point that the suite secp256k1_XMD:SHA-256_SSWU_RO_ of RFC 9380 prescribes: the sum of the 3-isogeny images of the simplified SWU images of the two field elements expanded from the message; the prescription determines the point.", "quantifier": "all messages and domain separators, all hash functions", "why_tests_cant": "Test vectors fix a handful of messages; the exceptional inputs of the map (zero denominators) are never met by chance.", "anchors": ["curve/hash_to_curve.go:HashToCurveRo", "curve/hash_to_curve.go:MapToCurve", "curve/hash_to_curve.go:sswuIsogenySecp256k1"]}
{"id": "C119", "title": "Proofs leave their arguments alone", "statement": "Create, Verify and RecoverCommitments of the three proof systems of zk compute, on a memory, the results they compute on values, for every aliasing of the arguments (witnesses, bases, instance points, proof). A proof returned by Create is made of new scalars, no two the same object; no object that existed before the call has changed, also when the call returns an error; a proof just made is accepted by Verify in the memory Create left behind, for each of the three proof systems.", "quantifier": "all memories, all arguments in any aliasing, all seeds and associated data", "why_tests_cant": "Tests pass distinct objects and do not look at the arguments afterwards.", "anchors": ["zk/dlog.go:Create", "zk/dlog.go:Verify", "zk/equal_opening.go:Create", "zk/equal_opening.go:Verify", "zk/product.go:Create", "zk/product.go:Verify"]}
{"id": "C120", "title": "Encryption and decryption leave their arguments alone", "statement": "EncryptCiphertextSingle, EncryptCiphertextPair, Decrypt, DecryptFromSharedSecret, DecryptAndCheck, CheckValidity, CheckOpening and GenKeypair compute, on a memory, the results they compute on values, for every aliasing of plaintexts, keys, ciphertext and commitment. Their results are new objects, no two the same; nothing that existed before the call has changed, also on errors; decrypting in the memory left behind by the encryption gives back the value of the plaintext.", "quantifier": "all memories, all arguments in any aliasing, all numbers of recipients", "why_tests_cant": "Tests pass distinct objects; the in-place arithmetic of the code could damage shared ones.", "anchors": ["mega/ciphertext.go:EncryptCiphertextSingle", "mega/ciphertext.go:EncryptCiphertextPair", "mega/ciphertext.go:Decrypt", "mega/ciphertext.go:DecryptAndCheck", "mega/ciphertext.go:CheckValidity", "poly/commitment.go:CheckOpening"]}
{"id": "C121", "title": "Clones are independent copies", "statement": "The clone of a proof or of a ciphertext stands for the same value as the original, and whatever is later written to the objects of one leaves the other as it is.", "quantifier": "all memories, proofs and ciphertexts, all later writes", "why_tests_cant": "Tests compare the clone right after the call.", "anchors": ["zk/dlog.go:Clone", "zk/equal_opening.go:Clone", "zk/product.go:Clone", "mega/ciphertext.go:Clone"]}
{"id": "C122", "title": "Dealing and verifying leave their arguments alone", "statement": "NewIDkgDealingInternal, PubliclyVerify and PrivateVerify compute, on a memory, the results they compute on values, for every aliasing of the shares, the recipients' keys, the secret key and the previous commitments. A new dealing is made of new objects, no two the same; nothing that existed before a call has changed, also on errors. The dealing of an honest dealer passes both verifications in every later memory in which the objects existing after its making are unchanged.", "quantifier": "all memories, all kinds of shares and arguments in any aliasing, all numbers of recipients, all later memories", "why_tests_cant": "Tests use distinct objects and do not look at the arguments after the calls.", "anchors": ["dealings/dealings.go:NewIDkgDealingInternal", "dealings/dealings.go:PubliclyVerify", "dealings/dealings.go:PrivateVerify"]}
{"id": "C123", "title": "Transcripts and openings leave dealings alone", "statement": "NewTranscriptInternal, ConstantTerm and EvaluateAt of a transcript, ReconstructShareFromOpenings, and CommitmentOpening's OpenDealing, CombineOpenings, FromDealings and FromDealingsAndOpenings compute, on a memory, the results they compute on values, for every aliasing of dealings, openings, transcript and keys (also when one dealing is passed for several dealers). Their results are made of new objects; nothing that existed before the call has changed. A node that computes its share a second time gets the same value in other objects.", "quantifier": "all memories, all maps of dealings and openings, all aliasing", "why_tests_cant": "The code sums commitments and openings in place; tests do not compare the dealings before and after.", "anchors": ["dealings/transcript.go:NewTranscriptInternal", "dealings/transcript.go:ReconstructShareFromOpenings", "dealings/transcript_operation.go:ConstantTerm", "dealings/transcript_operation.go:EvaluateAt", "dealings/commitment.go:OpenDealing", "dealings/commitment.go:CombineOpenings", "dealings/commitment.go:FromDealings", "dealings/commitment.go:FromDealingsAndOpenings"]}
{"id": "C124", "title": "Deriving keys and signing leave their arguments alone", "statement": "DeriveTweak, DerivePublicKey, DeriveRho, NewThresholdEcdsaSigShareInternal, NewThresholdEcdsaCombinedSigInternal and both Verify methods compute, on a memory, the results they compute on values, for every aliasing of the key and presignature transcripts, the openings and the shares. Shares and signatures are made of new objects, no two the same; nothing that existed before a call has changed, also on errors. Combining the same shares twice gives the same numbers in other objects, and a signature combined from enough honest shares verifies in every later memory in which the objects existing after its making are unchanged, unless one of its numbers is zero.", "quantifier": "all memories, derivation paths, messages, maps of shares, all aliasing, all later memories", "why_tests_cant": "The code negates, inverts and adds in place; tests use fresh objects and do not look at the arguments after the calls.", "anchors": ["key/key_derivation.go:DeriveTweak", "sign/sign.go:DeriveRho", "sign/sign.go:DerivePublicKey", "sign/share.go:NewThresholdEcdsaSigShareInternal", "sign/share.go:Verify", "sign/combined_sig.go:NewThresholdEcdsaCombinedSigInternal", "sign/combined_sig.go:Verify"]}
{"id": "C125", "title": "Complaining leaves dealings alone", "statement": "NewComplaintInternal, GenerateComplaints and IDkgComplaintInternal.Verify compute, on a memory, the results they compute on values, for every aliasing of dealings and keys. Complaints are made of new objects; nothing that existed before a call has changed. A justified complaint made by a receiver is accepted in every later memory in which the objects existing after its making are unchanged.", "quantifier": "all memories, maps of dealings, keys, all aliasing, all later memories", "why_tests_cant": "Tests do not compare the dealings before and after, nor pass one dealing for several dealers.", "anchors": ["complaints/complaints.go:GenerateComplaints", "complaints/complaints.go:NewComplaintInternal", "complaints/complaints.go:Verify"]}
{"id": "C126", "title": "Hashing to the curve leaves its arguments and the isogeny constants alone", "statement": "cmov, sqrtRatio, sswu, MapToCurve, HashToField, HashToScalar and HashToCurveRo compute, on a memory, the results they compute on values, for every aliasing of their arguments with each other and with the objects of the global variable K256C. Their results are new objects, no two the same, and nothing that existed before the call has changed, the constants included. sswuIsogenySecp256k1 overwrites its second argument, which is its second result, and nothing else. A caller may change the point a hash returned: hashing the same bytes again still gives the point of the first hash, in another object.", "quantifier": "all memories, field elements, byte strings, counts, all aliasing, all changes between two calls that spare the constants", "why_tests_cant": "The code adds, multiplies and inverts in place on shared temporaries, and multiplies by global pointers; tests hash once and do not look at the arguments or the constants afterwards.", "anchors": ["curve/hash_to_curve.go:HashToCurveRo", "curve/hash_to_curve.go:MapToCurve", "curve/hash_to_curve.go:sswu", "curve/hash_to_curve.go:sqrtRatio", "curve/hash_to_curve.go:sswuIsogenySecp256k1", "curve/hash_to_curve.go:HashToField", "curve/hash_to_curve.go:HashToScalar"]}
{"id": "C127", "title": "Damaging a dealing leaves the given one alone", "statement": "CorruptDealing returns a dealing in which the entries of the targets, and nothing else, are shifted by one random scalar, and leaves the dealing it was given as it was.", "quantifier": "all memories, dealings, distinct targets in range, seeds", "why_tests_cant": "The tests replace the given dealing by the result at once and never look at it again.", "anchors": ["testutils/test_utils.go:CorruptDealing"]}
{"id": "C128", "title": "Proofs show nothing but that they are accepted", "statement": "For a true statement, every proof that Verify accepts is made by Create from every witness of the statement, with exactly one choice of nonces: Create returns this proof if and only if its generator yields these nonces. So with uniform nonces the proof returned does not depend on which witness was used. Holds for discrete-log equality, equal openings and products.", "quantifier": "all statements, witnesses, accepted proofs, associated data, seeds, key streams, hash functions", "why_tests_cant": "A test sees one witness and one seed; that no witness is favoured is a statement about all of them.", "anchors": ["zk/dlog.go:Create", "zk/equal_opening.go:Create", "zk/product.go:Create"]}
{"id": "C129", "title": "Masked dealings hide the secret from fewer than threshold recipients", "statement": "Given a random dealing, or a dealing of a product, and any group of fewer than threshold-many recipients: for every other secret (for products: every other second factor, with the mask that gives it the same commitment) there are random choices with which NewIDkgDealingInternal makes a dealing of that secret that agrees with the given one in the commitment, the proof, the ephemeral key, the proof of possession and the ciphertext entries of the group. A commitment together with the group's openings leaves every secret the same positive number of choices of polynomials, exactly one if the group is one short of the threshold.", "quantifier": "all dealings, thresholds, recipients, keys, groups below the threshold, secrets, seeds whose derived keys differ, hash functions", "why_tests_cant": "Tests have no notion of what a group of recipients cannot learn.", "anchors": ["dealings/dealings.go:NewIDkgDealingInternal", "dealings/dealings.go:EncryptAndCommitPairPolynomial", "mega/ciphertext.go:EncryptCiphertextPair", "poly/commitment.go:Create"]}
{"id": "C130", "title": "A random transcript with one honest dealer hides its secret", "statement": "Take a random transcript made from dealings of which one is honest, while the others are any dealings that pass PubliclyVerify and can be opened by the recipients. For every group of fewer than threshold-many recipients and every scalar s there are random choices of the honest dealer that leave the transcript, everything the group sees of the honest dealing and the shares the group computes unchanged, while the shares of all recipients are the values of a polynomial of threshold-many coefficients with constant term s.", "quantifier": "all thresholds, dealers, recipients, keys, groups below the threshold, scalars, seeds whose derived keys differ, hash functions", "why_tests_cant": "A test can only look at one transcript; that it could have had every other secret is about all of them.", "anchors": ["dealings/transcript.go:NewTranscriptInternal", "dealings/dealings.go:NewIDkgDealingInternal", "dealings/commitment.go:FromDealings"]}
{"id": "C131", "title": "Dealings without mask show only the public key", "statement": "Of a dealing without mask of a secret s, a group of recipients one short of the threshold sees nothing that does not follow from s·G and its own shares: the commitment is given by Lagrange's formula from s·G and the shares, and ephemeral key, proof of possession and the group's ciphertext entries are those of encrypting the group's shares together with arbitrary other values. And for every secret and every assignment of shares to fewer than threshold-many recipients there are random choices that give the group these shares.", "quantifier": "all secrets, thresholds, recipients, keys, groups below the threshold, shares, seeds whose derived keys differ, hash functions", "why_tests_cant": "A test compares the outcome with expected values; that nothing else can be learnt is about all secrets and shares.", "anchors": ["dealings/dealings.go:NewIDkgDealingInternal", "dealings/dealings.go:EncryptAndCommitSinglePolynomial", "mega/ciphertext.go:EncryptCiphertextSingle"]}
{"id": "C132", "title": "Curve types other than K256 are refused", "statement": "Every function that takes a curve type (drawing, decoding, hashing of scalars, field elements and points, generating and decoding keys) reports an error for a curve type that is not implemented; for K256 it is the K256 function.", "quantifier": "all curve types, byte strings, seeds, random streams, hash functions", "why_tests_cant": "The tests only use K256.", "anchors": ["curve/types.go:EccCurveType", "curve/scalar.go:scalar.Random", "curve/scalar.go:scalar.Deserialize", "curve/point.go:point.GeneratorH", "mega/key.go:GenKeypair", "mega/key.go:VerifyMegaPublicKey"]}
{"id": "C133", "title": "Sizes and tags of the curve type are those of the encodings", "statement": "The sizes the curve type gives for scalars, field elements and points are the lengths of their encodings, the bit sizes are those of the moduli, the tag is the first byte of the tagged encodings, and FromTag returns K256 for the tag 1 only and no curve for every other tag.", "quantifier": "all scalars, field elements, points, tags, curve types", "why_tests_cant": "A test compares the sizes of a few encodings.", "anchors": ["curve/types.go:EccCurveType.ScalarBytes", "curve/types.go:EccCurveType.FieldBytes", "curve/types.go:EccCurveType.PointBytes", "curve/types.go:EccCurveType.Tag", "curve/types.go:FromTag"]}
{"id": "C134", "title": "Point encodings are in one of four formats, and their views agree", "statement": "FromBytes accepts the encodings of the four formats (identity, compact, compressed, uncompressed) and nothing else, and Len, AsBytes, Tag, Coordinates, X, Y, IsIdentity, IsCompact, IsCompressed and Compress of an accepted encoding return what the format says, without a panic.", "quantifier": "all byte strings, all coordinates of 32 bytes", "why_tests_cant": "The tests look at a few encodings and at tags on encodings of full length.", "anchors": ["curve/encode.go:FromBytes", "curve/encode.go:Coordinates", "curve/encode.go:Compress", "curve/encode.go:FromAffineCoordinates", "curve/encode.go:FromUnTaggedBytes"]}
{"id": "C135", "title": "Hexadecimal strings of point encodings", "statement": "FromStr accepts exactly the hexadecimal strings (either case) of the encodings FromBytes accepts, and FromStr(ToString(e)) returns e for every encoding e the package makes.", "quantifier": "all strings, all encodings", "why_tests_cant": "The tests convert one string each way.", "anchors": ["curve/encode.go:FromStr", "curve/encode.go:ToString"]}
{"id": "C136", "title": "ReverseBytes reverses", "statement": "ReverseBytes returns a slice of the same length whose byte i is byte len-1-i of the argument; applied twice it returns the argument; it turns big-endian numbers into little-endian ones.", "quantifier": "all byte strings", "why_tests_cant": "The loop has no test of its own.", "anchors": ["common/utils.go:ReverseBytes"]}
{"id": "C137", "title": "The driver's checks on dealings", "statement": "TestPublicDealingVerification returns exactly if the dealing passes PubliclyVerify for its dealer and not for the next one (the two checks with one more receiver then never fail), and panics otherwise without any other effect; CreateDealings with these checks does what it does without them, or panics because a dealing it made passes PubliclyVerify in the name of the next dealer, which exhibits a collision of the hash function.", "quantifier": "all setups, dealings, operations, dealers, seeds, hash functions", "why_tests_cant": "The checks are themselves test code; that the last two say nothing more is about all dealings.", "anchors": ["testutils/test_utils.go:TestPublicDealingVerification", "testutils/dealings.go:CreateDealings", "dealings/dealings.go:PubliclyVerify"]}
{"id": "C138", "title": "Seeds for testing are random", "statement": "RandomSeed returns a fresh seed of 32 bytes on every call.", "quantifier": "all hash functions and stream ciphers", "why_tests_cant": "A test sees one seed.", "anchors": ["testutils/test_utils.go:RandomSeed"]}
{"id": "C139", "title": "Serialised values are well-formed CBOR of fixed shape", "statement": "The bytes written by MarshalCBOR for scalars and points are one CBOR byte string holding the tagged encoding; the bytes written by Serialize for openings and for commitments with at least one point are exactly one CBOR map with the keys CurveType, CommitType/CommitmentType and Message, in this order, holding the curve type 1, the type, and the array of the tagged encodings; their number of bytes is 33+35k for k scalars and 36+head+36k for k points. An empty commitment panics.", "quantifier": "all scalars, points, openings and commitments", "why_tests_cant": "Documents of every length class (heads of 1, 2, 3, 5 and 9 bytes).", "anchors": ["poly/commitment.go:Serialize", "curve/k256_scalar.go:MarshalCBOR", "curve/k256_point.go:MarshalCBOR"]}
{"id": "C140", "title": "Serialised bytes determine the value", "statement": "Two commitments with the same serialised bytes are the same commitment (kind and points); two openings have the same serialised bytes exactly if they are of the same kind with the same scalars, although both kinds are marked as simple.", "quantifier": "all commitments and openings", "why_tests_cant": "Injectivity over all pairs.", "anchors": ["poly/commitment.go:Serialize"]}
{"id": "C141", "title": "Deserialize inverts Serialize on bytes", "statement": "Reading the bytes written by Serialize gives back the opening or the commitment.", "quantifier": "all openings and commitments", "why_tests_cant": "Every value and every length; the tests only read one simple opening and one simple commitment.", "anchors": ["poly/commitment.go:Serialize", "poly/commitment.go:Deserialize"]}
{"id": "C142", "title": "Field arithmetic: roots, inverses, signs, constants and bytes", "statement": "Sqrt returns flag 1 exactly for squares, with a root, and 0 with value 0 otherwise; of an element and its negative at least one has a root and only zero both. Invert gives the multiplicative inverse, and leaves a receiver as it is when the argument is zero. Sign is the parity and differs between an element other than zero and its negative. Progenitor is the power (p-3)/4 with the relations to roots used by the hash-to-curve map. The constants Z, A, B, C2 of the map are those of the isogenous curve: Z = -11 is not a square, C2 is the root of -Z. AsBytes gives 32 bytes that determine the element, and FromBytes and FromBytesWide read them back; FromBytesWide gives the value of up to 64 bytes modulo the field's order.", "quantifier": "all field elements", "why_tests_cant": "The tests check zero, one and 1000 consecutive values; the statements are about all of the field's elements.", "anchors": ["curve/k256_fe.go:Sqrt", "curve/k256_fe.go:Invert", "curve/k256_fe.go:Sign", "curve/k256_fe.go:Progenitor", "curve/k256_fe.go:AsBytes", "curve/k256_fe.go:FromBytes"]}
{"id": "C143", "title": "Decoding a field element accepts only its own 32 bytes", "statement": "FromBytes of a field element accepts a byte string exactly if it has 32 bytes whose value is below the field's order, and gives the element with this value.", "quantifier": "all byte strings", "why_tests_cant": "Strings of all lengths.", "anchors": ["curve/k256_fe.go:FromBytes", "curve/fe.go:FromBytes"]}
{"id": "C144", "title": "Rounds with too few dealers are refused", "statement": "Resharing a secret of threshold t with fewer than t dealers, and multiplying secrets of thresholds t and t' with fewer than t+t'-1 dealers, ends with an error, whatever the new nodes, the new threshold and the number of damaged dealings; it does not end otherwise, except for defects of the random generator (a sampling that does not end, a zero scalar where the code panics). Multiplying by a masked secret that fewer nodes hold than hold the unmasked one panics.", "quantifier": "all setups, rounds, thresholds, numbers of nodes and dealers up to 2^32", "why_tests_cant": "The tests try thresholds 2 with 1 and 2 dealers.", "anchors": ["testutils/protocol_round.go:ReshareOfMasked", "testutils/protocol_round.go:ReshareOfUnmasked", "testutils/protocol_round.go:Multiply"]}
{"id": "C145", "title": "Constant terms across rounds", "statement": "All resharings of one masked secret, by any numbers of dealers, damaged dealings, nodes and thresholds, have the same constant term; resharing a secret without mask keeps it; with c, d the resharings of a, b, the products a·d and b·c, reshared, have the same constant term; after ModifyThreshold and RemoveNodes, resharing hands the secret to the remaining nodes with the new threshold.", "quantifier": "all setups and rounds", "why_tests_cant": "The tests try four and five nodes.", "anchors": ["testutils/protocol_round.go:ConstantTerm", "testutils/protocol_setup.go:RemoveNodes", "testutils/protocol_setup.go:ModifyThreshold", "testutils/protocol_test.go"]}
{"id": "C146", "title": "A presignature used twice gives the key away", "statement": "From two signatures accepted by Verify under the same key and presignature transcripts, for any messages, random values and derivation paths, the master key is computed from public values alone, unless the ratios r/s agree up to sign. (Nothing in the library keeps a presignature from being used again.)", "quantifier": "all transcripts, messages, paths and accepted signatures", "why_tests_cant": "An algebraic fact about all pairs of signatures.", "anchors": ["sign/combined_sig.go:Verify", "sign/sign.go:DeriveRho"]}
{"id": "C147", "title": "Reduction of wide byte strings is even", "statement": "Of the byte strings of length L ≤ 64, each scalar (field element) is the reduction of ⌊256^L/n⌋ (⌊256^L/p⌋) or one more. For 48 evenly distributed bytes the result's statistical distance from an evenly distributed scalar or field element is below 2^-128. For several scalars at once, the numbers multiply.", "quantifier": "all lengths up to 64, all scalars and field elements, all numbers of scalars", "why_tests_cant": "A statement about the number of preimages of each value.", "anchors": ["curve/k256_scalar.go:FromBytesWide", "curve/k256_fe.go:FromBytesWide", "curve/hash_to_curve.go:HashToScalar"]}
{"id": "C148", "title": "Shares of one transcript lie on common polynomials", "statement": "Openings that a commitment without mask accepts are exactly the values of one polynomial at the nodes. Openings that a Pedersen commitment accepts at as many nodes as it has points, or more, are the values of one pair of polynomials to which the commitment is a commitment, or else a search over these openings, using only ReconstructShareFromOpenings on the first of them, finds the discrete logarithm of the second generator to the base of the first. The same holds for the shares that nodes got for one transcript, whatever dealings, complaint openings, associated data and keys each of them used.", "quantifier": "all commitments that are not empty, sets of nodes without repetition, openings, dealings and keys", "why_tests_cant": "The statement is about arbitrary, also adversarial, openings; tests only open honest dealings.", "anchors": ["poly/commitment.go:CheckOpening", "dealings/commitment.go:FromDealings", "dealings/commitment.go:FromDealingsAndOpenings", "dealings/transcript.go:ReconstructShareFromOpenings"]}
{"id": "C149", "title": "Signing shows a group below the threshold nothing but the signature", "statement": "For a given key and nonce, message and randomness, and for the openings of a group with one node less than the threshold, the possible secrets of the other sharings (the factor, the product with the key and the product with the nonce, and their masks) correspond one to one to four scalars. What is published in signing - the commitments of the three sharings and all nodes' signature shares - is a function, given in the model, of these four scalars, public values, the group's own openings and the signature. So for evenly drawn secrets, what the group sees has the same distribution as the output of a simulator that is given the signature only.", "quantifier": "all keys, nonces, messages, derivation paths, groups, openings of the group, accepted signatures", "why_tests_cant": "A statement about distributions over a field of about 2^256 elements.", "anchors": ["sign/share.go:NewThresholdEcdsaSigShareInternal", "sign/combined_sig.go:Verify", "sign/sign.go:DeriveRho"]}
{"id": "C150", "title": "Proofs of equality of discrete logarithms are sound in the random oracle model", "statement": "A program that asks the hash function at most q questions and gives a statement and a proof has a proof accepted for a false statement for at most the share (q+1)/n of all hash functions, n being the order of the group. With the code's own hash function, being accepted in this sense is what Verify of each of the three proof systems accepts.", "quantifier": "all finite sets of questions, all programs that ask at most q of them, all q; the program chooses generators, statement and associated data itself", "why_tests_cant": "It is a statement about all adversaries and all hash functions.", "anchors": ["zk/dlog.go:Verify", "zk/equal_opening.go:Verify", "zk/product.go:Verify", "ro/ro.go:OutputScalars"]}
{"id": "C151", "title": "Accepted proofs are proofs of knowledge in the random oracle model", "statement": "If a program that asks the hash function at most q questions gives an accepted proof for the share e of all hash functions, then running it a second time with another answer to the one question its first proof depends on gives, for at least the share e^2/(q+1) - e/n of all hash functions and answers, two proofs from whose responses and challenges a witness of the statement is computed: the discrete logarithm, the difference of the maskings of the two openings, or the opening of the left factor and the masking that relates product and right factor.", "quantifier": "all finite sets of questions, all programs that ask at most q of them, all q, for the three proof systems", "why_tests_cant": "It is a statement about all adversaries and all hash functions.", "anchors": ["zk/dlog.go:Verify", "zk/equal_opening.go:Verify", "zk/product.go:Verify", "ro/ro.go:OutputScalars"]}
{"id": "C152", "title": "Ciphertexts hide their plaintexts in the random oracle model", "statement": "The entries of a ciphertext for a set of recipients, replaced by values made up at random, are not distinguished by a program except for hash functions where the program asks for the pad of one of these recipients; and the last 33 bytes of such a question are the Diffie-Hellman point of the ephemeral key and the key of that recipient. The entries that EncryptCiphertextSingle and EncryptCiphertextPair compute are those answers plus the plaintexts.", "quantifier": "all keys, plaintexts, dealers, associated data, sets of recipients and programs, at most 2^32 recipients", "why_tests_cant": "It is a statement about all adversaries and all hash functions.", "anchors": ["mega/ciphertext.go:EncryptCiphertextSingle", "mega/ciphertext.go:EncryptCiphertextPair", "mega/mega.go:megaHashToScalars"]}
{"id": "C153", "title": "Lagrange coefficients do not depend on the order of nodes", "statement": "With the nodes in another order the coefficients can be computed if they could be before, every node has the same coefficient, and samples in the new order interpolate to the same scalar or point. With two nodes or more, coefficients computed for different values differ. Equal gives 1 for equal lists of coefficients and 0 for all others.", "quantifier": "all lists of nodes, values and samples", "why_tests_cant": "Tests use a few node lists in ascending order.", "anchors": ["poly/lagrange.go:Equal", "poly/lagrange.go:AtValue", "poly/lagrange.go:InterpolateScalar", "poly/lagrange.go:InterpolatePoint"]}
{"id": "C154", "title": "Scalars and openings survive conversion to byte arrays and back", "statement": "ToScalarBytes of a scalar, converted back with ToScalar, is this scalar, and ToCommitmentOpeningBytes of an opening, converted back with ToCommitmentOpening, is this opening. ToScalar of an array of 32 bytes that is no scalar panics.", "quantifier": "all scalars, openings and arrays of 32 bytes", "why_tests_cant": "No test calls these functions.", "anchors": ["curve/scalar.go:ToScalarBytes", "curve/k256_scalar.go:ToScalar", "poly/commitment.go:ToCommitmentOpeningBytes", "poly/commitment.go:ToCommitmentOpening"]}
{"id": "C155", "title": "Lists of points and integers in the random oracle", "statement": "AddPoints succeeds exactly if none of the names name[0], name[1], ... is in use and each has at most 255 bytes; then every point has been added under its own name, and different lists added under one name are told apart by what is hashed. Integers are added as eight bytes, whether 32 or 64 bits wide, and different integers are told apart.", "quantifier": "all separators, previous inputs, names, lists of points and integers", "why_tests_cant": "Tests add a few fixed inputs.", "anchors": ["ro/ro.go:AddPoints", "ro/ro.go:AddPoint", "ro/ro.go:AddUint64", "ro/ro.go:AddUint32"]}
{"id": "C156", "title": "Derivation paths of numbers", "statement": "NewBip32 gives one index of four bytes, most significant first, for each number, so different lists of numbers are different paths. Next of such an index is the index of the next number; after the largest number comes an index of five bytes.", "quantifier": "all lists of 32-bit numbers", "why_tests_cant": "There are 2^32 numbers.", "anchors": ["key/key_derivation.go:NewBip32", "key/key_derivation.go:Next"]}
{"id": "C157", "title": "Words from the random generator", "statement": "Uint32 and Uint64 are the next four or eight bytes of the key stream, most significant first, and move on by as many bytes; a 64-bit word is two successive 32-bit words.", "quantifier": "all key streams and positions", "why_tests_cant": "Tests do not look at the words.", "anchors": ["rand/chacha20.go:Uint32", "rand/chacha20.go:Uint64"]}
{"id": "C158", "title": "Field-element functions write only their receiver", "statement": "Arithmetic on field elements writes the result on the values that the arguments had before the call into the receiver and nothing else, also if the receiver is one or all of the arguments; Sqrt leaves a root in the receiver and gives 1, or zero and gives 0 if there is none; Invert of zero leaves the receiver as it was; a clone is a new object with the same value.", "quantifier": "all memories and all choices of receiver and arguments", "why_tests_cant": "Tests use few patterns of sharing.", "anchors": ["curve/k256_fe.go:Add", "curve/k256_fe.go:Sub", "curve/k256_fe.go:Mul", "curve/k256_fe.go:Square", "curve/k256_fe.go:Invert", "curve/k256_fe.go:Sqrt", "curve/k256_fe.go:Clone", "curve/k256_fe.go:CAssign"]}
{"id": "C159", "title": "Proofs of dlog.go, equal_opening.go and product.go are zero-knowledge in the random oracle model", "statement": "A program that chooses a statement with its witness after at most q hash queries, is given a proof, and then makes any number of hash queries, behaves the same when the proof is made by Create as when it is made up from the statement alone, by choosing challenge and responses at random and letting the hash function answer the proof's one query by its challenge, except for a share q/n of the random choices (q/n^2 for products), n being the order of the group.", "quantifier": "all programs, statements, witnesses and associated data, any number of queries", "why_tests_cant": "Zero knowledge quantifies over all distinguishers and over all hash functions.", "anchors": ["zk/dlog.go:Create", "zk/dlog.go:HashToChallenge", "zk/equal_opening.go:Create", "zk/equal_opening.go:HashToChallenge", "zk/product.go:Create", "zk/product.go:HashToChallenge"]}
{"id": "C160", "title": "Any number of proofs together is zero-knowledge in the random oracle model", "statement": "A program that makes q hash queries and is given k proofs by Create of dlog.go, equal_opening.go and product.go, in any order and for statements and witnesses that it chooses depending on what it has seen, behaves the same when all the proofs are made up without the witnesses, except for a share (k q + k (k - 1) / 2) / n of the random choices.", "quantifier": "all programs, all k and q, all statements, witnesses and associated data", "why_tests_cant": "Quantifies over all distinguishers, hash functions and numbers of proofs.", "anchors": ["zk/dlog.go:Create", "zk/equal_opening.go:Create", "zk/product.go:Create"]}
{"id": "C161", "title": "A random dealing hides its secret from k recipients in the random oracle model", "statement": "A program sees the commitments and ciphertexts of a random dealing (NewIDkgDealingInternal with RandomSecret and threshold k + 1) and knows the encryption keys and pads of at most k recipients. Whatever the secret, it gives a certain output with the same probability, up to the probability that it asks the hash function for the pad of another recipient, which takes the Diffie-Hellman value of that recipient's public key and the ephemeral key.", "quantifier": "all programs, secrets, thresholds, numbers of recipients, sets of at most k recipients, associated data", "why_tests_cant": "Quantifies over all observers and all pairs of secrets.", "anchors": ["dealings/dealings.go:NewIDkgDealingInternal", "mega/ciphertext.go:EncryptCiphertextPair", "poly/commitment.go:Create"]}
{"id": "C162", "title": "Cheating dealers do not change secrets, or they give away the discrete logarithm of H", "statement": "Whoever made the dealings: if PubliclyVerify accepts them and NewTranscriptInternal combines them, then the transcript of a product shares the product of the two secrets, and the transcript of a reshared masked secret shares that secret; or an explicit number computed from the polynomials and from two answers to each dealer's first message (what rewinding gives, C151) is the discrete logarithm of the second generator. Resharing an unmasked secret keeps it whatever the dealers do.", "quantifier": "all dealings, dealers, polynomials, thresholds, associated data", "why_tests_cant": "Quantifies over all dealers, including those that deviate.", "anchors": ["dealings/dealings.go:PubliclyVerify", "dealings/transcript.go:NewTranscriptInternal", "zk/product.go", "zk/equal_opening.go"]}
{"id": "C163", "title": "Signatures despite cheating dealers", "statement": "Whoever made the dealings of the two product transcripts (key times blinding, nonce times blinding): if they are publicly verified and at least as many signers as the threshold have openings of all five transcripts, then their signature shares combine to a signature that verifies under the key of the key transcript with the nonce of the nonce transcript (if r and s are not zero); or one of six explicit numbers computed from the openings and the dealers' answers is the discrete logarithm of the second generator.", "quantifier": "all transcripts, dealers, signers, messages, derivation paths, openings", "why_tests_cant": "Quantifies over all deviating dealers and all transcripts.", "anchors": ["dealings/dealings.go:PubliclyVerify", "dealings/transcript.go:NewTranscriptInternal", "sign/share.go:NewThresholdEcdsaSigShareInternal", "sign/combined_sig.go:NewThresholdEcdsaCombinedSigInternal"]}
{"id": "C164", "title": "Dealers that cheat compute the discrete logarithm of H, in the random oracle model", "statement": "Dealers that make at most q hash queries between them end with dealings of a product (or of a reshared masked secret) whose proofs are all accepted, yet with a shared value that is not the product (not the secret), for a share e of all hash functions. Then running them twice, with another answer to one query, gives the discrete logarithm of the second generator for at least the share e^2/(q+1) - e/n of hash functions and second answers. Dealings that PubliclyVerify accepts and NewTranscriptInternal combines are of this kind.", "quantifier": "all programs, q, polynomials, dealers, associated data", "why_tests_cant": "Quantifies over all dealers that deviate and over all hash functions.", "anchors": ["dealings/dealings.go:PubliclyVerify", "dealings/transcript.go:NewTranscriptInternal", "zk/product.go:Verify", "zk/equal_opening.go:Verify"]}
{"id": "C165", "title": "A dealing of a product, with its proof, hides the share of the masked factor in the random oracle model", "statement": "A program asks at most q hash queries, is then given everything that NewIDkgDealingInternal publishes of a dealing of a product (commitments, encrypted shares, proof), and whatever fewer than threshold-many recipients know, and asks any number of further queries. It tells two shares of the masked factor with the same commitments apart with an advantage of at most 2q/n^2 plus the share of random choices for which it asks for the encryption pad of a recipient outside the group, in the game where it is given made-up entries for these recipients and a made-up proof.", "quantifier": "all programs, q, thresholds, groups of recipients below the threshold, dealer indices, associated data, shares", "why_tests_cant": "Quantifies over all programs and over all hash functions.", "anchors": ["dealings/dealings.go:NewIDkgDealingInternal", "zk/product.go:Create", "mega/ciphertext.go:EncryptCiphertextPair"]}
{"id": "C166", "title": "The secret of a random transcript with one honest dealer can be neither predicted nor biased, in the random oracle model", "statement": "A program is given everything that NewIDkgDealingInternal publishes of an honest random dealing, and whatever fewer than threshold-many recipients know. It then deals itself, and names a set of t numbers. The secret of the transcript that NewTranscriptInternal makes of all dealings, the sum of the secrets dealt, is in the set for the share t/n of random choices, up to the share for which the program asks for the encryption pad of a recipient outside the group, in the game where it is given made-up entries for these.", "quantifier": "all programs, thresholds, groups of recipients below the threshold, sets, dealer indices, associated data", "why_tests_cant": "Quantifies over all programs and over all hash functions.", "anchors": ["dealings/dealings.go:NewIDkgDealingInternal", "dealings/transcript.go:NewTranscriptInternal", "mega/ciphertext.go:EncryptCiphertextPair"]}
{"id": "C167", "title": "Dealings without mask show only the public key of what is dealt, in the random oracle model", "statement": "A program is given everything that NewIDkgDealingInternal publishes when resharing an unmasked or masked secret (commitments, encrypted shares, for masked secrets the proof of equal openings), and whatever fewer than threshold-many recipients know. It does the same with a dealing made up without the secret, from the secret times G and (for masked secrets) the masked commitment, up to the share of random choices for which it asks for the encryption pad of a recipient outside the group in the made-up game, plus q/n for the proof when it asked q hash queries beforehand.", "quantifier": "all programs, q, thresholds, groups of recipients below the threshold, dealer indices, associated data, secrets and masks", "why_tests_cant": "Quantifies over all programs and over all hash functions.", "anchors": ["dealings/dealings.go:NewIDkgDealingInternal", "zk/equal_opening.go:Create", "mega/ciphertext.go:EncryptCiphertextSingle"]}
{"id": "C168", "title": "Keys do not change when their caller changes points and scalars", "statement": "A mega key gives the same bytes from Serialize whatever its caller does afterwards, in place, to the point or scalar the key was made from or to what PublicPoint and SecretScalar returned. Likewise a public key made by PublicKey does not change with the scalar of the private key.", "quantifier": "all keys, all memories, all later writes", "why_tests_cant": "Needs a change in place between two calls of Serialize; tests use every key unchanged.", "anchors": ["mega/key.go:NewMEGaPublicKey", "mega/key.go:NewMEGaPrivateKey", "mega/key.go:PublicPoint", "mega/key.go:SecretScalar", "mega/key.go:PublicKey", "mega/key.go:GeneratePrivateKey", "mega/key.go:Deserialize"]}
{"id": "C169", "title": "Protocol runs leave existing objects alone", "statement": "A run of the protocol driver on memory gives the results it gives on values: setup, the four kinds of rounds with any number of damaged dealings, opening checks, signature shares, signatures and their check. Everything a round or a signature setup refers to is newly made and no two of its objects are the same, although dealings are damaged in place and the shares of a round are the opening objects of an earlier one. Nothing that existed before the call has changed, neither keys nor earlier rounds. After a setup that returned, any threshold-many shares give a signature that is valid ECDSA for the derived key.", "quantifier": "all primitives, setups, rounds, numbers of dealers (up to 2^63) and damaged dealings, all memories", "why_tests_cant": "Sharing shows only if an object is changed through one reference and read through another later on; the tests compare results of fresh runs.", "anchors": ["testutils/protocol_setup.go:NewProtocolSetup", "testutils/protocol_setup.go:RemoveNodes", "testutils/dealings.go:CreateDealings", "testutils/dealings.go:OpenDealings", "testutils/protocol_round.go:New", "testutils/protocol_round.go:Random", "testutils/protocol_round.go:ReshareOfMasked", "testutils/protocol_round.go:ReshareOfUnmasked", "testutils/protocol_round.go:Multiply", "testutils/protocol_round.go:VerifyCommitmentOpenings", "testutils/signature_protocol_setup.go:NewSignatureProtocolSetup", "testutils/signature_protocol_setup.go:GenerateShares", "testutils/signature_protocol_setup.go:GenerateSignature", "testutils/signature_protocol_setup.go:VerifySignature"]}
{"id": "C170", "title": "A seed used twice, or known, gives the secrets away", "statement": "Proofs, ciphertexts, dealings and complaints take their random values from the seed alone. Two proofs made with one seed and one witness, for any instances and associated data, give the witness to everybody, unless their challenges agree. Two ciphertexts of one kind made with one seed, for any plaintexts, recipients and associated data, let everybody decrypt all of the first one; two dealings made with one seed that both hide their secrets or both do not let everybody open all shares of the first one, and there are at least threshold-many of them. Complaints about the same dealer number made with one seed and one key in two runs give that key away, and so does a single complaint whose seed is known. (Nothing in the library keeps a seed from being used again; the driver in testutils derives the seeds of complaints from the transcript.)", "quantifier": "all primitives, seeds, instances, secrets, thresholds, recipients, dealings and associated data", "why_tests_cant": "An algebraic fact about all pairs of runs; the tests only check that honest runs are accepted.", "anchors": ["zk/dlog.go:Create", "zk/equal_opening.go:Create", "zk/product.go:Create", "mega/mega.go:ComputeEphKeyAndPop", "mega/ciphertext.go:EncryptCiphertextSingle", "mega/ciphertext.go:EncryptCiphertextPair", "dealings/dealings.go:NewIDkgDealingInternal", "complaints/complaints.go:GenerateComplaints"]}
{"id": "C171", "title": "What each hash is bound to", "statement": "Every hash of the protocol (the challenges of the three proof systems, the encryption pads, the bases of proofs of possession, the associated data of complaints, the randomiser of a presignature) is bound to exactly its arguments, where node indices count modulo 2^32 and all byte strings of more than 255 bytes count as one value different from all shorter ones: two computations give the same result for every hash function if and only if their arguments agree in this sense.", "quantifier": "all arguments, byte strings of any length, all node indices", "why_tests_cant": "That two different inputs are hashed to the same value for every hash function, or to different ones for some, concerns all pairs of inputs; a test tries a few pairs with one hash function and finds them different.", "anchors": ["zk/dlog.go:59-69", "zk/equal_opening.go:102-111", "zk/product.go:91-102", "mega/mega.go:16-43", "complaints/complaints.go:62-69", "sign/sign.go:32-38", "ro/ro.go"]}
{"id": "C172", "title": "Rejection sampling is even", "statement": "Of all key streams of k blocks of 32 bytes, every list of m scalars is what a polynomial of m coefficients drawn from the stream consists of on the same number of streams: drawing from an evenly distributed stream gives independent, evenly distributed scalars, although the buffer is not cleared between attempts and each attempt is combined with the bytes of the one before. On exactly (2^256 - n)^k of the streams of k blocks not even one scalar is drawn within the k blocks, a share of at most 2^(-127k).", "quantifier": "all numbers of blocks, all lists of scalars of any length", "why_tests_cant": "Evenness is a count over all 2^(256k) streams; a test draws a few scalars from one stream and would not notice a bias, let alone one that arises only after a rejected block, which a test never meets.", "anchors": ["curve/scalar.go:101-109", "poly/poly.go:35-44", "rand/chacha20.go:35-37"]}
{"id": "C173", "title": "What signing takes from the library's comparison of scalars", "statement": "Whatever rule IsHigh follows: NewThresholdEcdsaCombinedSigInternal fails in the same cases and otherwise returns the same signature up to the sign of s; Verify accepts exactly the valid signatures (up to that sign) whose s the rule does not call high; and a valid combined signature is accepted unless the rule calls both s and -s high. If the library compared the Montgomery representations of scalars instead of their values, the rule would call both s and -s high for exactly 2^256 - n - 1 (fewer than 2^129) scalars and exactly one of them for all other non-zero ones, and it would not be the low/high classification: signatures would verify but not be low-S.", "quantifier": "all rules, shares, transcripts, messages, signatures", "why_tests_cant": "IsHigh rests on Cmp of a dependency; a test signs and verifies with the same Cmp and passes for either meaning, while the exceptional scalars are too rare to be met.", "anchors": ["curve/k256_scalar.go:127-130", "sign/combined_sig.go:56-60", "sign/combined_sig.go:80-82"]}
{"id": "C174", "title": "What signers that cheat can do", "statement": "A signer who knows the other signers' shares can choose the value s that NewThresholdEcdsaCombinedSigInternal returns, freely up to its sign, and ThresholdEcdsaSigShareInternal.Verify accepts the share with which it does so. But the combined signature's Verify then accepts only the one signature that the honest shares combine to, whatever shares were combined. If combiners accepted only shares that open the right combinations of the public commitments (theta*lambda + rho*x*lambda for the numerator, randomizer*lambda + kappa*lambda for the denominator), then any such shares would combine to the honest signature, or an explicit quotient of two openings would be the discrete logarithm of the second generator.", "quantifier": "all signer sets, cheating signers, shares of the others, target values, messages, transcripts, hash functions", "why_tests_cant": "A test tries one kind of wrong share; that every value can be forced, that no wrong result passes, and that the intended check would suffice are statements about all shares.", "anchors": ["sign/share.go:56-86", "sign/combined_sig.go:18-66", "sign/combined_sig.go:68-98"]}
{"id": "C175", "title": "Resharing renews shares", "statement": "An unmasked secret may be reshared any number of times (NewIDkgDealingInternal with ReshareOfUnmaskedSecret, NewTranscriptInternal, FromDealings), with other dealers, receivers and thresholds every time. Somebody who reads the memory of one node less than the threshold between any two resharings, other nodes every time (their old shares, the polynomials they deal, and every value dealt to the nodes they read next), has collected values that fit every secret, and for each secret exactly one choice of all polynomials involved. The commitments of all dealings are computed from the public key and these values. The shared secret stays the same throughout.", "quantifier": "all numbers of resharings, dealers, thresholds, nodes read, values dealt, secrets", "why_tests_cant": "A test runs one or two resharings with given polynomials; that values from all epochs together leave the secret open is a statement about all polynomials that could have been used.", "anchors": ["dealings/dealings.go:80-88", "dealings/transcript.go:25-57", "dealings/transcript.go:96-109", "dealings/commitment.go:48-67"]}
{"id": "C176", "title": "A commitment stays as it is when points are changed in place", "statement": "Commitments to polynomials hold pointers to points, and points can be changed in place (Add, Assign and the other methods of EccPoint). Whatever a caller does afterwards to the points it passed to SimpleCM.New, PedersenCM.New or Create, or got from Points, ConstantTerm or EvaluateAt, or to the commitment a clone was made from, StableRepresentation and EvaluateAt of the commitment give what they gave before, and openings that were accepted are still accepted.", "quantifier": "all commitments, points, polynomials, openings, node indices, later changes of the objects concerned", "why_tests_cant": "A test changes one object and looks at one result; the claim is about every later state of memory and every use of the commitment in it.", "anchors": ["poly/commitment.go:139-160", "poly/commitment.go:184-202", "poly/commitment.go:259-282", "poly/commitment.go:307-325", "curve/k256_point.go:174-177"]}
{"id": "C177", "title": "Who learns something from dealings computes Diffie-Hellman values", "statement": "A program is given the public keys of the recipients and everything that NewIDkgDealingInternal publishes of a dealing (random, resharing without mask, resharing of a masked secret with its proof, product with its proof), has the private keys of fewer than threshold-many recipients, and asks the hash function for at most q pads. Whatever advantage it has in telling secrets apart (or a dealing from one made up from the public key, or in biasing the secret of a transcript), on average over the keys of the other m recipients, is at most q times m times the probability that an explicit program around it, given any two points b*G and w*G and neither of their discrete logarithms, outputs b*w*G (plus the terms for the proofs, at most 2q'/n^2 and q'/n for q' questions asked before the dealing was seen).", "quantifier": "all thresholds, numbers of recipients up to 2^32, groups below the threshold, private keys of the group, programs, b, w", "why_tests_cant": "A test cannot run over all programs; the claim is a reduction, an inequality between probabilities for every program.", "anchors": ["mega/ciphertext.go:65-91", "mega/ciphertext.go:236-262", "dealings/dealings.go:60-119"]}
{"id": "C178", "title": "Who learns something from dealings with their proofs of possession computes Diffie-Hellman values", "statement": "A program asks the hash function for at most q challenges, is then given the public keys of the recipients and everything that NewIDkgDealingInternal publishes of a dealing (random, resharing without mask, resharing of a masked secret with its proof, product with its proof), including the base, the public key and the proof of possession of the ephemeral key, has the private keys of fewer than threshold-many recipients, and asks for at most q' pads and any number of challenges. Its advantage in telling two secrets apart (or the resharing from one made up from the public key) is, on average over the keys of the other recipients and over the base of the proof of possession, at most a term for the proofs (2q/n, q/n, (2q+1)/n and 2((q+1)/n + q/n^2)) plus q' times the number of recipients times the probability that an explicit program around it, given two points b*G and w*G and nothing else about b and w, outputs b*w*G. With the same bound for random dealings, such a program cannot make the sum of the dealt secret and of secrets it chooses itself lie in a set of t numbers with a probability other than t/n. The proof of possession published by EncryptCiphertextSingle and EncryptCiphertextPair is the one the statement speaks of.", "quantifier": "all thresholds, numbers of recipients up to 2^32, groups below the threshold, private keys of the group, programs, b, w; for the code all seeds, recipients, dealers, associated data", "why_tests_cant": "A test cannot run over all programs; the claim is a reduction, an inequality between probabilities for every program.", "anchors": ["mega/mega.go:37-79", "mega/ciphertext.go:65-91", "mega/ciphertext.go:236-262", "dealings/dealings.go:60-119"]}
{"id": "C179", "title": "Deserialize refuses bytes that encode no opening or commitment", "statement": "CommitmentOpening.Deserialize and PolynomialCommitment.Deserialize return an error, and do not panic, for every CBOR document whose message does not consist of the tagged encodings of the scalars or points of an opening or commitment; what they return without an error is the opening or commitment with these encodings.", "quantifier": "all documents with a curve type, a kind and a message of byte strings", "why_tests_cant": "The tests only read what Serialize wrote; the documents are unbounded in number and size.", "anchors": ["poly/commitment.go:52-75", "poly/commitment.go:401-424", "curve/k256_scalar.go:135-146", "curve/k256_point.go:206-217"]}
{"id": "C180", "title": "Impossible amounts of hash output are refused with an error", "statement": "ExpandMessageXmd, HashToField, HashToScalar, OutputByteString and OutputScalars return an error, and do not panic, for every length outside 0 to 8160 and every number of values outside 0 to 170, and return values for the others (for the two methods of transcripts: if the transcript has an input).", "quantifier": "all messages, separators, transcripts and hash functions, all values of type int for lengths and numbers", "why_tests_cant": "No test asks for a negative length or number or for one whose number of bytes overflows; the values of int cannot be tried one by one.", "anchors": ["seed/xmd.go:12-61", "curve/hash_to_curve.go:104-142", "ro/ro.go:103-109", "ro/ro.go:124-129"]}
{"id": "C181", "title": "Byte slices given and handed out stay independent", "statement": "Encoded points, derivation paths and transcripts do not change when the caller later writes into a slice of bytes that was passed to them or that they returned, and no function of curve/encode.go, key/key_derivation.go, ro/ro.go, seed/xmd.go or common/utils.go writes into bytes that existed before it was called.", "quantifier": "all contents of memory, slices (however they overlap), indices, inputs, capacities chosen by append, hash functions, and all later writes", "why_tests_cant": "Tests use every slice once and never write into one afterwards; whether append writes in place depends on capacities that no test varies.", "anchors": ["curve/encode.go:113-184", "curve/encode.go:202-257", "key/key_derivation.go:35-67", "key/key_derivation.go:75-110", "ro/ro.go:36-57", "ro/ro.go:110-129", "seed/xmd.go:12-63", "common/utils.go:3-11"]}
{"id": "C182", "title": "A signature is valid for one derived key only", "statement": "A signature that Verify accepts for a derivation path is an ECDSA signature on no hash under the public key that DerivePublicKey returns for another path.", "quantifier": "all signatures, paths, hashes, keys and hash functions", "why_tests_cant": "A statement about all hashes and keys for which a signature could be valid; tests try the signature with the key and hash it was made for.", "anchors": ["sign/combined_sig.go:68-98", "sign/sign.go:52-67", "key/key_derivation.go:92-110"]}
{"id": "C183", "title": "Lagrange coefficients belong to their owner", "statement": "Coefficients go on interpolating at the value they were made for, whatever their caller does in place to the scalars they passed in or got back: the arguments of New and AtValue, the results of Coefficients and of interpolations.", "quantifier": "all memories, samples, coefficients and later writes", "why_tests_cant": "Tests interpolate right after the coefficients were made and write to no scalar in between.", "anchors": ["poly/lagrange.go:19-26", "poly/lagrange.go:40-42", "poly/lagrange.go:48-72", "poly/lagrange.go:84-140"]}
{"id": "C184", "title": "Good dealings are not complained about with success, in the random oracle model", "statement": "For a dealing with accepted proof of possession, a complaint that Verify accepts although the complaining node's share opens the commitment has a wrong shared secret and a proof that hits its challenge; programs that ask q questions of the oracle and make m complaints end with such a complaint for a share of at most m(q+1)/n of the oracles. If the share is bad, the node's own complaint is accepted.", "quantifier": "all dealings, honest or not, all keys, complaints and programs that make them", "why_tests_cant": "Quantifies over all ways to make complaints and counts oracles.", "anchors": ["complaints/complaints.go:71-100", "complaints/complaints.go:46-60", "zk/dlog.go:104-121"]}
{"id": "C185", "title": "Calls write only to objects that they made, not even for a moment to others", "statement": "While a call runs, however it ends, every scalar, point, field element or polynomial written to is one made by that call, or the receiver of an arithmetic method; so no argument, shared constant or other object is changed even temporarily, and calls that share arguments may run at the same time.", "quantifier": "all memories, all arguments and all patterns of sharing between them", "why_tests_cant": "Tests see only what is there when the call returns, and races show up by chance.", "anchors": ["curve/k256_scalar.go", "curve/k256_point.go", "poly/poly.go", "poly/lagrange.go", "poly/commitment.go", "zk/dlog.go", "zk/product.go", "zk/equal_opening.go", "mega/ciphertext.go", "mega/mega.go", "dealings/dealings.go", "dealings/transcript.go", "complaints/complaints.go", "sign/sign.go", "curve/hash_to_curve.go"]}
{"id": "C186", "title": "Who forges signatures knowing less than the threshold forges ordinary ECDSA signatures", "statement": "A program knows the openings that one node less than the threshold holds of the key and of N presignatures, sees all commitments, and has the nodes make signature shares (NewThresholdEcdsaSigShareInternal), once with each presignature, for paths, messages and random values that it chooses depending on everything seen before. Whatever it does in the end, such as naming a signature on something that was not signed, it does for exactly the same share of random choices when it is run by an explicit program that has only the public key, the public points of the nonces, and one ordinary ECDSA signature per request under the derived key with the moved nonce. This holds for every key and all nonces.", "quantifier": "all programs, numbers of presignatures, thresholds, groups, openings held, keys, nonces, hash functions, outcomes", "why_tests_cant": "A statement about all programs and the numbers of random choices for which they reach an outcome.", "anchors": ["sign/share.go:17-54", "sign/sign.go:21-47"]}
{"id": "C187", "title": "How often honest signing fails", "statement": "Shares that t nodes compute with NewThresholdEcdsaSigShareInternal from consistent sharings always combine; Verify accepts the result exactly if the blinding is not zero and SEC 1 has a signature for the derived key, the moved nonce and the message, and otherwise returns an error. Unless hash and derived key are both zero, at least 3 and at most 7 of the n nonces have no signature (exactly 3 if the hash is zero). With the randomiser a random function of the transcript, a program that puts q questions finds a message of at most 64 bytes, a path and randomness without signature with probability at most 7(q+1)/n, even if it knows key and nonce.", "quantifier": "all keys, nonces, messages, paths, thresholds, sets of signers, programs, numbers of questions", "why_tests_cant": "The cases where signing fails are a few of 2^256, and the bound counts hash functions.", "anchors": ["sign/sign.go:21-47", "sign/combined_sig.go:18-98", "sign/share.go:17-54"]}
{"id": "C188", "title": "Exactly which dealings make a transcript, and which", "statement": "For dealings of distinct dealers that have commitments and a positive threshold t, NewTranscriptInternal returns a transcript exactly when all commitments have t points and: random - all are Pedersen; reshare - there is a dealing, the operand is of the right kind and has no more points than there are dealings, and for an unmasked operand the constant term stays the same; product - there is a dealing, the operands are simple and Pedersen, and their points number at most one more than the dealings. The j-th point of the transcript is then the sum of the j-th points, for random transcripts, and their sum weighted with Lagrange's coefficients at 0 for the others. Otherwise it returns an error (operands have points). A dealing without commitment never makes a transcript.", "quantifier": "all thresholds, sets of dealings and dealers, operations and operands", "why_tests_cant": "Tests make transcripts of honest dealings and look at what they open to, not at the rule.", "anchors": ["dealings/transcript.go:25-57", "dealings/transcript.go:59-123", "poly/lagrange.go:48-60", "poly/lagrange.go:84-140"]}
{"id": "C189", "title": "Key generation shows a group one short of the threshold only the public key", "statement": "A key is made as the driver does it: honest nodes (at least one) deal random polynomials with masks, others add what they like after seeing these dealings, and honest nodes then reshare their shares without mask. For threshold k+1, what k nodes see of the honest dealings of both rounds (all commitments, and their own openings), together with the key, has exactly the distribution of a uniformly random key x together with what a program makes up from x*G alone. The transcript that NewTranscriptInternal makes of the second round has the key of the first, and is a function of x*G and of what the group sees, whatever nodes of the group deal there (their own shares, reshared).", "quantifier": "all thresholds, numbers of honest dealers, groups of k nodes, reactions of the others, questions about view and key", "why_tests_cant": "Tests generate keys with fixed seeds and look at the result; what a view does not tell is a statement about all choices of the honest nodes.", "anchors": ["testutils/signature_protocol_setup.go:31-48", "dealings/dealings.go:60-119", "dealings/transcript.go:25-57", "dealings/transcript.go:59-123"]}
{"id": "C190", "title": "Key generation and signing together are as hard to attack as ECDSA", "statement": "A program knows what k nodes of a (k+1)-threshold group know while a key and N nonces are generated (one after the other or together, others reacting to the honest dealings as they like) and then, for messages of its choice, nodes sign with the presignatures, each once. For every question about the public key and the result, in particular whether the program ends with a forged signature under a derived key for a hash that was not signed for this path, the answer is the same with exactly the same probability when the program is run with a uniformly random key and uniformly random nonces known to an ECDSA oracle, everything else it sees being made up from the public points and one ECDSA signature for each request.", "quantifier": "all thresholds, numbers of honest nodes and nonces, groups of k nodes, reactions, programs and questions", "why_tests_cant": "Tests run the protocol with fixed seeds; they cannot speak about what programs gain from what they see.", "anchors": ["testutils/signature_protocol_setup.go:31-69", "dealings/dealings.go:60-119", "dealings/transcript.go:59-123", "sign/share.go:17-54", "sign/sign.go:21-47"]}
{"id": "C191", "title": "The whole protocol gives a group one short of the threshold only what an ECDSA oracle gives", "statement": "A program knows what k nodes of a (k+1)-threshold group see and hold while a key and N nonces are generated, N random masked lambda are dealt, and the products kappa*lambda and x*lambda are made (all honest dealings spelled out, the nodes of the group dealing what they like after having seen them, in the products with the constant term that the proofs force on them), and then has nodes sign, each presignature being used once. For every question about the public key and the result, in particular whether it ends with a forged signature, the answer is the same with exactly the same probability when the program is run with a uniformly random key and uniformly random nonces known to an ECDSA oracle, everything else being made up from the public points and one ECDSA signature for each request.", "quantifier": "all thresholds, numbers of honest dealers and presignatures, groups of k nodes, reactions, programs and questions", "why_tests_cant": "Tests run the protocol with fixed seeds and honest nodes; they cannot speak about what programs gain from what they see.", "anchors": ["testutils/signature_protocol_setup.go:31-69", "dealings/dealings.go:60-119", "dealings/transcript.go:59-123", "sign/share.go:17-54", "sign/sign.go:21-47"]}
{"id": "C192", "title": "The private key of one path gives away all others", "statement": "The private keys of two derivation paths under one master key differ by the difference of two numbers that everyone can compute from the public master key, so that the private key of any one path gives the private keys of all paths and of the master key.", "quantifier": "all hash functions, master keys, paths for which derivation returns, and private keys", "why_tests_cant": "Tests derive fixed paths and look at public keys only.", "anchors": ["sign/sign.go:52-67", "key/key_derivation.go:92-110"]}
{"id": "C193", "title": "Presignatures may be made while signatures are made", "statement": "After a key is generated, a program that knows what k nodes of a (k+1)-threshold group see and hold decides at every step, from all it has seen, whether one more presignature is made (nonce, lambda and both products) and what the nodes of the group do meanwhile, or what is signed with which presignature, each being used once. For every question about the public key and the result, in particular whether it ends with a forged signature, the answer is the same with exactly the same probability when the program is run with a uniformly random key and uniformly random nonces known to an ECDSA oracle, everything else being made up from the public points and one ECDSA signature for each request.", "quantifier": "all thresholds, numbers of honest dealers and presignatures, groups of k nodes, programs, orders of presignatures and signatures, and questions", "why_tests_cant": "Tests make one presignature with honest nodes and sign once with it.", "anchors": ["testutils/signature_protocol_setup.go:31-69", "dealings/dealings.go:60-119", "dealings/transcript.go:59-123", "sign/share.go:17-54", "sign/sign.go:21-47"]}
{"id": "C194", "title": "Complaints about dealings that were not verified give away what others sent", "statement": "A complaint carries the Diffie-Hellman value of the complaining node and of the dealing's ephemeral key. With it, everybody gets from DecryptFromSharedSecret what the node decrypts from any dealing with the same ephemeral key, whoever dealt it. GenerateComplaints complains about every dealing that does not decrypt, also about those that PubliclyVerify refuses: whoever sends an honest dealer's dealing without its entries under another index makes the node publish what the honest dealer sent it. PubliclyVerify refuses such dealings; and a dealing with the ephemeral key and second key of somebody else's has a proof of possession of a false statement, unless the bases hashed from the two indices are equal.", "quantifier": "all dealings, dealers, receivers, keys, associated data, seeds and maps of dealings", "why_tests_cant": "Tests complain about dealings that the driver has damaged itself.", "anchors": ["complaints/complaints.go:22-60", "mega/ciphertext.go:200-227", "mega/ciphertext.go:288-307", "mega/mega.go:37-53", "dealings/dealings.go:121-187"]}
{"id": "C195", "title": "Wrong openings do not prevent reconstruction", "statement": "If at least as many of the provided openings are right as the dealing's commitment has coefficients, ReconstructShareFromOpenings returns the share, whatever the other provided openings are.", "quantifier": "all dealings with a non-empty commitment, sets of openers, openings and nodes", "why_tests_cant": "Tests reconstruct from right openings only; which wrong ones spoil it depends on a weighted sum over all openers.", "anchors": ["dealings/transcript.go:138-208", "dealings/commitment.go:23-51", "poly/commitment.go:221-226", "poly/commitment.go:344-349"]}
{"id": "C196", "title": "Dealers that deal last do not decide what a transcript is", "statement": "If all dealings pass PubliclyVerify, the commitment that NewTranscriptInternal makes of them is not one that a single dealer, who deals after having seen the other dealings, has chosen: a random transcript keeps the random secret of the other dealers, and a reshared or multiplied one keeps the random coefficients of their polynomials.", "quantifier": "all operations, thresholds, sets of dealers, dealings and wanted points", "why_tests_cant": "Tests make every dealing with NewIDkgDealingInternal, which commits to a polynomial that the dealer knows; a commitment made of the points of other dealings never occurs.", "anchors": ["dealings/dealings.go:121-187", "dealings/dealings.go:189-195", "dealings/transcript.go:25-57", "dealings/transcript.go:59-123"]}
{"id": "C197", "title": "Dealings are bound to their dealer and their associated data", "statement": "A dealing that was made for one dealer and one string of associated data is not taken for a dealing of another dealer or with other associated data: PubliclyVerify and PrivateVerify do not accept it there, and no share is decrypted from it.", "quantifier": "all dealings, pairs of dealers, associated data, operations, keys and hash functions", "why_tests_cant": "Tests verify each dealing with the dealer index and the associated data that it was made with; indices above 2^32 and associated data above 255 bytes never occur.", "anchors": ["dealings/dealings.go:121-187", "dealings/dealings.go:189-195", "mega/mega.go:16-30", "mega/mega.go:37-43", "mega/mega.go:46-53"]}
{"id": "C198", "title": "The exact bytes that are hashed", "statement": "Encryption pads, bases of proofs of possession, challenges of proofs, associated data of complaints and randomisers of presignatures are what ExpandMessageXmd, hashing to scalars or hashing to the curve gives for one fixed byte string each: the fields of the step in ascending order of names, each as name length, name, type, value length and value, with indices cut to 32 bits and written in eight bytes, points compressed after the number of the curve, and values above 255 bytes left out; and of one fixed domain separator each, followed by the name of the curve where the output is a scalar or a point.", "quantifier": "all indices, keys, points, scalars, byte strings and hash functions", "why_tests_cant": "Test vectors fix outputs for a few inputs; that the same format is used for all others, with other lengths, signs of indices and points at infinity, is a statement about every input.", "anchors": ["ro/ro.go:36-57", "ro/ro.go:110-122", "mega/mega.go:16-30", "mega/mega.go:37-43", "zk/dlog.go:59-69", "zk/equal_opening.go:102-111", "zk/product.go:91-102", "complaints/complaints.go:62-69", "sign/sign.go:32-36"]}
{"id": "C199", "title": "Where a run of the protocol takes its randomness from", "statement": "In every run of the protocol driver, made of random, resharing and product rounds in any order with nodes removed and thresholds changed in between, the rounds are numbered one after the other; dealer number j of round number r deals with the seed expanded, under the label of seeds from generators, from block j of the key stream of the round's seed, which is expanded from the seed of the setup under the label for round r. The seed and the associated data of the setup never change. No two pairs of round and dealer are confused: for some hash function and key stream they have different seeds. The setup of the signing protocol is such a run of seven rounds numbered from zero. Associated data and keys of the nodes come from consecutive parts of the key stream of the setup's seed.", "quantifier": "all runs, numbers of nodes and dealers, thresholds, damaged dealings, seeds, hash functions and key streams; round numbers below 2^63 for the comparison", "why_tests_cant": "That no seed is used in two places (which would give the secrets away, C170) is a statement about every run and all its rounds.", "anchors": ["testutils/protocol_setup.go:21-56", "testutils/dealings.go:86-104", "testutils/protocol_round.go:44-127", "testutils/signature_protocol_setup.go:31-69", "seed/seed.go:35-43"]}
{"id": "C200", "title": "In the driver, a damaged dealing costs its recipients their private keys", "statement": "In every round of the protocol driver (random, resharing of a masked or an unmasked value, product) that damages at least one dealing and returns, some node has a dealing that it cannot verify, and every such node makes at least one complaint; all its complaints are accepted, and from any one of them everybody can compute the private key of the node, unless the challenge of the complaint's proof is zero: the seed of the complaints is derived from the encoded commitment of the transcript and the number of the node, both public. After the setup of the signing protocol with damaged dealings, this is so for every round that the setup keeps.", "quantifier": "all setups, previous rounds, numbers of dealers and of damaged dealings above zero, encodings of commitments, hash functions and key streams", "why_tests_cant": "The tests run such rounds and check that the openings are right; that the published complaints determine the keys is an algebraic fact about all runs.", "anchors": ["testutils/dealings.go:15-84", "testutils/dealings.go:117-145", "testutils/protocol_round.go:30-127", "complaints/complaints.go:22-44", "zk/dlog.go:Create", "testutils/signature_protocol_setup.go:31-69"]}
{"id": "C201", "title": "Dealings whose encrypted entries are changed on the way are noticed by the recipients concerned, and blamed on the dealer", "statement": "Let encrypted entries of a dealing be changed, while commitment, proof, ephemeral key, proof of possession and number of entries stay. PubliclyVerify ends in the same way as before, whatever was changed. A recipient for whom PrivateVerify accepted the dealing accepts it still if their entry was not changed, and otherwise gets an error, unless the old and the new entry together give away the discrete logarithm of H (impossible without masks). The complaint of a recipient who got the error is accepted by Verify; so this holds also for dealings that NewIDkgDealingInternal made as it should, whose dealer did nothing wrong.", "quantifier": "all dealings, changes of entries, recipients, keys, operations, hash functions and seeds", "why_tests_cant": "The tests damage dealings by adding one random value to some entries and look at the outcome of single runs; that no change at all goes unnoticed by its recipient and that all other recipients and everybody verifying publicly notice nothing is a statement about all changes.", "anchors": ["dealings/dealings.go:PubliclyVerify", "dealings/dealings.go:PrivateVerify", "mega/ciphertext.go:DecryptAndCheck", "mega/ciphertext.go:CheckValidity", "complaints/complaints.go:Verify", "testutils/test_utils.go:12-57"]}
{"id": "C202", "title": "A dealing passes for one operation only", "statement": "A dealing that PubliclyVerify accepts is accepted for one kind of operation only, with one threshold and one number of receivers; and where the operation refers to earlier transcripts, only for transcripts whose commitments have the same values at the dealer.", "quantifier": "all dealings, pairs of operations, thresholds, numbers of receivers, dealers, associated data and hash functions", "why_tests_cant": "Tests verify each dealing for the operation that it was made for; a dealing that passes for another transcript as well is found only by trying that transcript.", "anchors": ["dealings/dealings.go:121-187", "zk/equal_opening.go:85-124", "zk/product.go:91-115"]}
{"id": "C203", "title": "Two signature shares made with one presignature give away what the node holds", "statement": "Two shares that a node makes with NewThresholdEcdsaSigShareInternal from the same openings, for any two requests (messages, random values, derivation paths) under the same key and presignature transcripts, are equal, or everybody can compute from them and public numbers all three openings that the node used, values and masks, unless the first r is zero. From such shares of at least threshold many nodes everybody can compute the master key and the nonce, unless the blinding is zero, whether or not any signature is valid.", "quantifier": "all transcripts, openings, requests, sets of signers and hash functions", "why_tests_cant": "Tests make one share per node and presignature; what two of them reveal is an algebraic fact about all pairs of requests.", "anchors": ["sign/share.go:NewThresholdEcdsaSigShareInternal", "sign/sign.go:DeriveRho"]}
{"id": "C204", "title": "No index has the secret for its share", "statement": "Whatever index a node or a dealer is given, its share of a dealing does not determine the secret if the threshold is two or more, no single dealing of several decides what a reshared or multiplied transcript is, and no single signature share of several decides the signature: indices for which this would be so are refused.", "quantifier": "all indices (64-bit), commitments, dealings, thresholds, operations, signers and signature shares", "why_tests_cant": "Tests number nodes from zero; the index for which the shift by one overflows is not tried.", "anchors": ["curve/scalar.go:FromNodeIndex", "poly/lagrange.go:AtValue", "dealings/transcript.go:NewTranscriptInternal", "dealings/transcript.go:ReconstructShareFromOpenings", "dealings/transcript_operation.go:EvaluateAt", "sign/combined_sig.go:NewThresholdEcdsaCombinedSigInternal"]}
