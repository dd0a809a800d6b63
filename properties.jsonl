{"id": "C01", "title": "Key aggregation computes the BIP327 aggregate key", "statement": "KeyAggContext::new(pubkeys) returns a context whose aggregated_pubkey is the BIP327 KeyAgg result for the same ordered keys (sum of a_i*P_i with the BIP327 coefficients); it returns KeyAggError exactly when that sum is the point at infinity, and panics exactly when the key list is empty or longer than u32::MAX.", "quantifier": "every finite list of valid public keys (any length, any duplicates, any order) and every hash function agreeing with SHA-256 on the protocol tags", "why_tests_cant": "the vectors cover a handful of key lists; duplicates patterns, length and the infinity branch are unbounded", "anchors": ["src/key_agg.rs: KeyAggContext::new, hash_pubkeys, compute_key_aggregation_coefficient", "reference.py: key_agg"]}
{"id": "C02", "title": "Key coefficients agree for duplicates and match BIP327", "statement": "key_coefficient(P) is Some(a) exactly for members of the group, a is the BIP327 coefficient of P (1 for the first key that differs from the first key, a tagged hash otherwise), equal keys at different positions get the same coefficient, and effective_pubkey(P) = a*P.", "quantifier": "every group (any size, duplicates), every queried public key", "why_tests_cant": "lookup goes through a hash map that silently keeps the last index of a duplicated key; only a proof covers all duplicate patterns", "anchors": ["src/key_agg.rs: key_coefficient, effective_pubkey, compute_key_aggregation_coefficient"]}
{"id": "C03", "title": "Index lookup and key lookup are coherent", "statement": "pubkeys() is the list given to new in the same order; get_pubkey(i) is its i-th element or None; pubkey_index(P) is None exactly when P is not in the list, and otherwise an index i with get_pubkey(i) = P (the last such index).", "quantifier": "every group and every key or index, after any tweaks", "why_tests_cant": "coherence of three redundant structures (list, map, cache) over all lists", "anchors": ["src/key_agg.rs: pubkeys, get_pubkey, pubkey_index"]}
{"id": "C04", "title": "Tweaking follows BIP327 ApplyTweak for every sequence of tweaks", "statement": "with_tweaks(ts) yields the aggregated key of the BIP327 ApplyTweak fold over ts (Q' = g*Q + t*G, g = -1 iff the tweak is x-only and Q has odd Y), fails with TweakError exactly when some step of that fold reaches infinity, and never changes the member keys or coefficients.", "quantifier": "every context, every finite sequence of (tweak, is_xonly) pairs", "why_tests_cant": "parity accumulates over the history of tweaks; the vectors have at most four", "anchors": ["src/key_agg.rs: with_tweak, with_tweaks, with_plain_tweak, with_xonly_tweak", "reference.py: apply_tweak"]}
{"id": "C05", "title": "The untweaked key is recoverable after any tweaks", "statement": "aggregated_pubkey_untweaked() never panics and equals the aggregated_pubkey() of the context before any tweak.", "quantifier": "every group and every successful finite sequence of plain, x-only and taproot tweaks", "why_tests_cant": "depends on an invariant relating three mutated fields over all histories; the code has an unwrap that would panic otherwise", "anchors": ["src/key_agg.rs: aggregated_pubkey_untweaked"]}
{"id": "C06", "title": "tweak_sum is the sum of the tweaks applied", "statement": "tweak_sum() returns the sum modulo n of all tweaks applied so far, or None if that sum is zero (documentation at key_agg.rs:412-414).", "quantifier": "every context and every successful sequence of tweaks", "why_tests_cant": "holds for any plain sequence but depends on hidden parity for x-only tweaks", "anchors": ["src/key_agg.rs: tweak_sum"]}
{"id": "C07", "title": "Aggregated secret key matches the aggregated public key", "statement": "If aggregated_seckey(sks) returns Ok(d) then d*G equals aggregated_pubkey(); it returns Ok whenever sks are the secret keys of the members in order; it returns an error when more keys than members are given.", "quantifier": "every context (any tweaks), every finite list of secret keys", "why_tests_cant": "combination of coefficients, parity accumulator and tweak accumulator over all histories", "anchors": ["src/key_agg.rs: aggregated_seckey"]}
{"id": "C08", "title": "aggregated_seckey accepts only the aligned secret keys", "statement": "aggregated_seckey returns InvalidSecretKeysError if the secret keys do not align with the ordered set of pubkeys given to the context (documentation at key_agg.rs:467-470).", "quantifier": "every context, every list of secret keys that is not the ordered list of discrete logs", "why_tests_cant": "the check is only on the weighted sum, so the exceptional inputs are a measure-zero set no random test hits", "anchors": ["src/key_agg.rs: aggregated_seckey"]}
{"id": "C09", "title": "Taproot tweaks produce the BIP341 output key", "statement": "with_taproot_tweak(root) yields a context whose aggregated x-only key is lift_x(x(Q)) + t*G with t = int(H_TapTweak(x(Q) || root)), failing exactly when t >= n, t = 0 or the result is infinity; with_unspendable_taproot_tweak is the same with an empty root.", "quantifier": "every context (already tweaked or not) and every 32-byte root", "why_tests_cant": "Q may be odd or even, and previous tweaks may have flipped the parity accumulator", "anchors": ["src/key_agg.rs: with_taproot_tweak, with_unspendable_taproot_tweak"]}
{"id": "C10", "title": "Context serialization round-trips", "statement": "KeyAggContext::from_bytes(ctx.to_bytes()) is Ok and gives a context identical in every field (aggregated key, members, coefficients, parity, tweak). The bytes have the documented layout: a header byte with a parity bit and a tweak bit, the 32-byte tweak sum if it is not zero, the number of keys as a 4-byte big-endian integer, the compressed keys in order.", "quantifier": "every context reachable through new, tweaks and from_bytes", "why_tests_cant": "the encoding drops the aggregated key and re-derives it through a different code path (negate then one plain tweak)", "anchors": ["src/key_agg.rs: to_bytes, from_bytes"]}
{"id": "C11", "title": "Context decoding is total and yields only legitimate contexts", "statement": "KeyAggContext::from_bytes never panics, and every context it returns behaves as one whose aggregated key is (+/-) the BIP327 aggregate of its members plus tweak*G, with at least one member.", "quantifier": "every byte string", "why_tests_cant": "slicing, u32 length field and nested constructors with assert! are driven by untrusted bytes", "anchors": ["src/key_agg.rs: from_bytes"]}
{"id": "C12", "title": "Context encoding is canonical", "statement": "If from_bytes(b) = Ok(ctx) then ctx.to_bytes() = b, i.e. a context has one accepted encoding.", "quantifier": "every byte string", "why_tests_cant": "unused header bits are a 2^6-fold family of encodings per context", "anchors": ["src/key_agg.rs: from_bytes, to_bytes"]}
{"id": "C13", "title": "Equality of contexts is observational equality", "statement": "ctx1 == ctx2 (which compares only the member list, the parity accumulator and the tweak accumulator) holds exactly when all fields agree, so every method and every signing function gives equal results on them.", "quantifier": "every pair of reachable contexts with arbitrary different histories", "why_tests_cant": "requires that the uncompared cached fields are functions of the compared ones on all reachable states", "anchors": ["src/key_agg.rs: PartialEq for KeyAggContext"]}
{"id": "C14", "title": "Sorting makes aggregation order independent", "statement": "Contexts built from two permutations of the same multiset of keys after sorting by the serialized form are equal.", "quantifier": "every pair of key lists that are permutations of each other", "why_tests_cant": "all permutations of all lists", "anchors": ["src/key_agg.rs: KeyAggContext::new (documentation 45-92)", "src/key_sort.rs", "doc/API.md"]}
{"id": "C15", "title": "Generated secret nonces are the BIP327 nonces", "statement": "SecNonce::generate(seed, sk, Q, msg, extra) returns exactly the (k1,k2) of BIP327 NonceGen with rand'=seed, pk=sk*G, aggpk=xonly(Q), msg, extra_in, except that a zero scalar is replaced by 1.", "quantifier": "every seed, secret key, aggregated key, message below 2^64 bytes and extra input below 2^32 bytes", "why_tests_cant": "variable-length byte layouts and the reduction branch", "anchors": ["src/nonces.rs: SecNonce::generate, SecNonceBuilder::build", "reference.py: nonce_gen_internal"]}
{"id": "C16", "title": "SecNonceBuilder always matches BIP327 NonceGen", "statement": "SecNonceBuilder::build matches the BIP327 nonce generation algorithm on the supplied inputs except when a hash reduces to zero (documentation at nonces.rs:330-332), also when optional inputs are omitted.", "quantifier": "every combination of present/absent secret key, aggregated key, message, extra input", "why_tests_cant": "the claim is about every combination of optional inputs", "anchors": ["src/nonces.rs: SecNonceBuilder::build"]}
{"id": "C17", "title": "Secret nonces are never zero and public nonces never infinity", "statement": "Every SecNonce obtained from build, generate, FirstRound::new or from_bytes has both scalars in [1, n-1], and its public nonce consists of two finite points.", "quantifier": "every seed and every builder configuration, every byte string", "why_tests_cant": "the zero branch has probability 2^-256 and can never be tested", "anchors": ["src/nonces.rs: SecNonceBuilder::build, SecNonce::from_bytes, public_nonce"]}
{"id": "C18", "title": "The nonce hash input is injective in everything the caller supplies", "statement": "Two builders whose (seed-masked secret key, public key, x-only aggregated key, message, concatenated extra input incl. presence) differ feed different byte strings to the nonce hash, and k1 and k2 are derived from different byte strings.", "quantifier": "every pair of builder configurations within the length limits", "why_tests_cant": "ambiguity of concatenated variable-length fields is a property of all pairs of inputs", "anchors": ["src/nonces.rs: SecNonceBuilder::build"]}
{"id": "C19", "title": "Different signer indexes never share a nonce preimage", "statement": "For the same seed, context and spices, FirstRound::new at two different signer indexes hashes different byte strings, even if the two signers share the same public key.", "quantifier": "every context, every pair of distinct in-range indexes, every spices", "why_tests_cant": "duplicate keys with equal seeds are exactly the case ordinary tests skip", "anchors": ["src/rounds.rs: FirstRound::new", "src/nonces.rs: build"]}
{"id": "C20", "title": "Spices override builder parameters and extra input accumulates", "statement": "with_spices takes seckey and message from the spices when present and keeps the builder's otherwise, appends the extra inputs in order, and panics exactly when the accumulated extra input exceeds u32::MAX bytes.", "quantifier": "every builder and every spices", "why_tests_cant": "all combinations of optional fields and list lengths", "anchors": ["src/nonces.rs: with_spices, with_extra_input, extra_input_length_check"]}
{"id": "C21", "title": "Nonce aggregation is order independent and compositional", "statement": "AggNonce::sum equals the BIP327 NonceAgg of the nonces, does not depend on the order, and the sum over a concatenation is the component-wise sum of the parts (the empty sum being infinity).", "quantifier": "every finite list of public nonces and every permutation", "why_tests_cant": "all permutations of unbounded lists, including sums hitting infinity", "anchors": ["src/nonces.rs: AggNonce::sum, iter::Sum"]}
{"id": "C22", "title": "Session values match BIP327", "statement": "nonce_coefficient, final_nonce and the challenge hash computed by this crate are the b, R (with G in place of infinity) and e of BIP327 GetSessionValues.", "quantifier": "every aggregated nonce (incl. infinity components), aggregated key and message", "why_tests_cant": "infinity fallback and arbitrary-length messages", "anchors": ["src/nonces.rs: nonce_coefficient, final_nonce", "src/signing.rs: compute_challenge_hash_tweak"]}
{"id": "C23", "title": "Nonce encodings round-trip and are canonical", "statement": "from_bytes(to_bytes(x)) = Ok(x) for SecNonce, PubNonce and AggNonce; for PubNonce and AggNonce from_bytes(b)=Ok(x) implies to_bytes(x)=b; a SecNonce decodes from 64 or 97 bytes, reads only the first 64, and re-encodes to those 64 bytes; any other length is BadLength.", "quantifier": "every value and every byte string", "why_tests_cant": "all byte strings, incl. infinity encodings and invalid x coordinates", "anchors": ["src/nonces.rs: encodings"]}
{"id": "C24", "title": "Partial signing succeeds exactly for group members", "statement": "sign_partial / adaptor::sign_partial returns Ok exactly when seckey*G is a member of the context and UnknownKey otherwise; SelfVerifyFail is unreachable.", "quantifier": "every context, secret key, secret nonce, aggregated nonce (even adversarial), adaptor point and message", "why_tests_cant": "self-verification must succeed for all parities of Q, gacc and R and any adversarial aggregated nonce", "anchors": ["src/signing.rs: sign_partial_adaptor"]}
{"id": "C25", "title": "Partial signatures are the BIP327 partial signatures", "statement": "On success sign_partial returns the scalar of BIP327 Sign for the same secnonce, key, aggregated nonce, tweaks and message.", "quantifier": "every session (any group, any tweaks), every message", "why_tests_cant": "parity case splits multiplied over tweak histories", "anchors": ["src/signing.rs: sign_partial", "reference.py: sign"]}
{"id": "C26", "title": "Partial verification is BIP327 PartialSigVerify", "statement": "verify_partial returns Ok exactly when BIP327 PartialSigVerifyInternal accepts; UnknownKey exactly when the key is not in the group; otherwise BadSignature.", "quantifier": "every context, scalar, aggregated nonce, key, public nonce, message", "why_tests_cant": "acceptance set over all scalars and points", "anchors": ["src/signing.rs: verify_partial_adaptor", "reference.py: partial_sig_verify_internal"]}
{"id": "C27", "title": "Exactly one partial signature is acceptable per signer and session", "statement": "For a member key, its public nonce, an aggregated nonce, adaptor point and message there is exactly one scalar that verify_partial accepts.", "quantifier": "every context, member key, nonces, adaptor point, message", "why_tests_cant": "uniqueness over a 2^256 space; relied on for blame and for conflict detection", "anchors": ["src/signing.rs: verify_partial_adaptor"]}
{"id": "C28", "title": "Verified partial signatures always aggregate to a valid signature", "statement": "If verify_partial succeeds for every signer of the group with public nonces whose sum is the aggregated nonce, then aggregate_partial_signatures succeeds and its result passes verify_single under the aggregated key, provided R1+b*R2 is not infinity.", "quantifier": "every group size, duplicates, tweak history, message and malicious choice of nonces", "why_tests_cant": "unbounded number of signers and tweaks; adversarial nonces", "anchors": ["src/signing.rs: verify_partial (doc 191-195)", "src/sig_agg.rs: aggregate_partial_signatures"]}
{"id": "C29", "title": "Verified partial signatures aggregate even in the degenerate nonce case", "statement": "If verify_partial succeeds for every signature in a signing session, the resulting aggregated signature is guaranteed to be valid (documentation at signing.rs:193-195), with no exception.", "quantifier": "every session including those where the aggregated nonce R1+b*R2 is infinity", "why_tests_cant": "the exceptional nonces form a negligible set only reachable adversarially", "anchors": ["src/signing.rs: verify_partial documentation", "src/nonces.rs: final_nonce"]}
{"id": "C30", "title": "Aggregation never returns an invalid signature", "statement": "Whenever aggregate_partial_signatures returns Ok(sig), sig passes verify_single for the aggregated key and message, no matter what scalars were supplied; it never panics.", "quantifier": "every list of scalars (wrong count, junk, any order), every context, aggregated nonce and message", "why_tests_cant": "soundness over arbitrary untrusted inputs", "anchors": ["src/sig_agg.rs: aggregate_partial_signatures"]}
{"id": "C31", "title": "Aggregation is order independent and matches BIP327 PartialSigAgg", "statement": "aggregate_partial_signatures does not depend on the order of the partial signatures, and when Ok its 64-byte compact form equals BIP327 PartialSigAgg of the same session.", "quantifier": "every list of partial signatures and every permutation", "why_tests_cant": "all permutations of unbounded lists, all parities", "anchors": ["src/sig_agg.rs", "reference.py: partial_sig_agg"]}
{"id": "C32", "title": "Adaptor aggregation yields a valid adaptor signature that adapts to a valid signature", "statement": "Whenever adaptor::aggregate_partial_signatures returns Ok(sig) for adaptor point T = t*G, adaptor::verify_single accepts sig for T, and sig.adapt(t) passes verify_single unless final nonce + T is infinity, in which case adapt returns None.", "quantifier": "every group, tweaks, partial signatures, adaptor secret and message", "why_tests_cant": "three parities interact (R, R+T, Q) over all inputs", "anchors": ["src/sig_agg.rs: aggregate_partial_adaptor_signatures", "src/signature.rs: adapt"]}
{"id": "C33", "title": "verify_single is BIP340 verification", "statement": "verify_single(P, sig, msg) returns Ok exactly when BIP340 Verify(x(P), msg, sig) accepts, for 64-byte signatures given as bytes, CompactSignature or LiftedSignature; unparsable input is BadSignature.", "quantifier": "every public key, message and 64-byte string", "why_tests_cant": "the code avoids lifting R, so equivalence with the specified check needs a proof for all byte strings incl. off-curve x", "anchors": ["src/bip340.rs: verify_single", "reference.py: schnorr_verify"]}
{"id": "C34", "title": "Verification is insensitive to the parity of the public key", "statement": "verify_single, adaptor::verify_single and the challenge hash give the same result for P and -P.", "quantifier": "every key, signature, message, adaptor point", "why_tests_cant": "all keys of both parities", "anchors": ["src/bip340.rs", "src/signing.rs: compute_challenge_hash_tweak"]}
{"id": "C35", "title": "Solo signatures always verify", "statement": "sign_solo(sk, msg, seed) never panics and its result passes verify_single(sk*G, msg).", "quantifier": "every secret key, message, seed and hash function", "why_tests_cant": "nonce parity, key parity and the zero-nonce fallback over all inputs", "anchors": ["src/bip340.rs: sign_solo"]}
{"id": "C36", "title": "Solo signing is BIP340 default signing", "statement": "sign_solo(sk, msg, aux) equals the BIP340 signature bytes for auxiliary randomness aux, except when the nonce hash reduces to zero.", "quantifier": "every secret key, message, aux", "why_tests_cant": "all parities and messages of any length", "anchors": ["src/bip340.rs: sign_solo, sign_solo_adaptor"]}
{"id": "C37", "title": "Solo adaptor signatures verify and adapt to valid signatures", "statement": "adaptor::sign_solo(sk,msg,seed,T) passes adaptor::verify_single for T; with T=t*G, adapt(t) passes verify_single, or is None exactly when the adapted nonce is infinity.", "quantifier": "every secret key, message, seed, adaptor secret (including zero)", "why_tests_cant": "parity combinations and infinity edge", "anchors": ["src/bip340.rs: sign_solo_adaptor, verify_single_adaptor", "src/signature.rs: adapt"]}
{"id": "C38", "title": "An adaptor signature verifies exactly if adapting it gives a valid signature", "statement": "If R + t*G is not infinity then adaptor::verify_single(P, sig, msg, t*G) is Ok exactly when verify_single(P, sig.adapt(t), msg) is Ok.", "quantifier": "every adaptor signature (R of any parity or infinity), key, message and adaptor secret", "why_tests_cant": "equivalence over all signatures, valid and invalid", "anchors": ["src/bip340.rs: verify_single_adaptor", "src/signature.rs: adapt"]}
{"id": "C39", "title": "The adaptor secret is revealed by the decrypted signature", "statement": "For sig' = sig.adapt(t), sig.reveal_secret(sig') = Some(t).", "quantifier": "every adaptor signature and secret", "why_tests_cant": "sign ambiguity of t depends on parities and the infinity nonce", "anchors": ["src/signature.rs: reveal_secret, adapt"]}
{"id": "C40", "title": "reveal_secret is sound", "statement": "If reveal_secret(final) = Some(t) for a lifted signature then adapting the adaptor signature with t yields that final signature, and None is returned only if no secret adapts it to that signature.", "quantifier": "every adaptor signature and every even-nonce lifted signature", "why_tests_cant": "for all unrelated pairs as well", "anchors": ["src/signature.rs: reveal_secret"]}
{"id": "C41", "title": "Encrypting a valid signature yields a valid adaptor signature", "statement": "For a lifted signature sig valid for (P,msg) and secret t, sig.encrypt(t) is accepted by adaptor::verify_single with adaptor point t*G, and sig.encrypt(t).adapt(t) = sig.", "quantifier": "every valid signature and secret", "why_tests_cant": "for all nonces and secrets", "anchors": ["src/signature.rs: LiftedSignature::encrypt"]}
{"id": "C42", "title": "Encrypting an adaptor signature again stacks adaptor points", "statement": "For an adaptor signature valid for T, encrypt(t) yields an adaptor signature valid for T + t*G (AdaptorSignature::encrypt documentation: 'encrypts an existing adaptor signature again, by subtracting another adaptor secret').", "quantifier": "every valid adaptor signature and secret", "why_tests_cant": "correct for one parity of the adapted nonce and wrong for the other", "anchors": ["src/signature.rs: AdaptorSignature::encrypt"]}
{"id": "C43", "title": "Signature encodings round-trip and are canonical", "statement": "from_bytes(to_bytes(x)) = Ok(x) for CompactSignature and AdaptorSignature and for LiftedSignature with even nonce (every one constructible by the API); from_bytes(b)=Ok(x) implies to_bytes(x)=b; wrong lengths are BadLength; decoding never panics.", "quantifier": "every value and byte string", "why_tests_cant": "all byte strings", "anchors": ["src/signature.rs: encodings"]}
{"id": "C44", "title": "Lifted signatures always carry an even nonce", "statement": "Every LiftedSignature produced by LiftedSignature::new, lift_nonce, from_bytes, adapt, sign_solo, aggregation, deserialization or conversion from a type of secp256k1 or k256 has an even-Y nonce, and compact/lift_nonce are mutually inverse on them.", "quantifier": "every input", "why_tests_cant": "constructor discipline over all producing functions", "anchors": ["src/signature.rs"]}
{"id": "C45", "title": "Hex parsing inverts hex formatting", "statement": "Parsing the lower-case, upper-case or any mixed-case hex of to_bytes returns the same value, and strings of wrong length or with non-hex characters are rejected, for all fixed-size types and KeyAggContext.", "quantifier": "every value and every string", "why_tests_cant": "all strings", "anchors": ["src/binary_encoding.rs: impl_encoding_traits"]}
{"id": "C46", "title": "from_hex and from_bytes accept the same encodings of SecNonce", "statement": "SecNonce::from_hex(h) succeeds whenever h is the hex of a byte string accepted by SecNonce::from_bytes (64 or 97 bytes).", "quantifier": "every byte string accepted by from_bytes", "why_tests_cant": "the hex path uses a fixed 64-byte buffer", "anchors": ["src/binary_encoding.rs: FromStr", "src/nonces.rs: SecNonce::from_bytes"]}
{"id": "C47", "title": "Batch verification accepts every batch of valid signatures", "statement": "If each row is individually valid then verify_batch returns Ok; the empty batch is accepted.", "quantifier": "every finite list of rows (plain or adaptor), every RNG", "why_tests_cant": "unbounded batch size, arbitrary coefficients", "anchors": ["src/bip340.rs: verify_batch, BatchVerificationRow"]}
{"id": "C48", "title": "Batch verification detects a single bad signature", "statement": "A batch with exactly one invalid row is rejected, and a batch of one row is accepted exactly when the row is valid.", "quantifier": "every batch with exactly one invalid row at any position, every RNG", "why_tests_cant": "all positions and coefficients", "anchors": ["src/bip340.rs: verify_batch"]}
{"id": "C49", "title": "A bad batch passes for at most one value of each random coefficient", "statement": "If some row i>0 is invalid, then with all other coefficients fixed at most one nonzero value of the coefficient of row i makes the batch equation hold.", "quantifier": "every batch and every choice of the other coefficients", "why_tests_cant": "this is the counting statement behind probabilistic soundness", "anchors": ["src/bip340.rs: verify_batch"]}
{"id": "C50", "title": "Batch verification rejects every batch containing an invalid row", "statement": "verify_batch returns an error if any signature in the collection is not valid (documentation at bip340.rs:252-255), up to the unpredictability of the coefficients, i.e. the seed commits to everything the equation depends on.", "quantifier": "every batch including adaptor rows chosen after the coefficients are known", "why_tests_cant": "needs an adversarial choice of rows", "anchors": ["src/bip340.rs: verify_batch, from_adaptor_signature"]}
{"id": "C51", "title": "Deterministic nonces are valid and deterministic signatures verify", "statement": "derive_nonce_rfc6979 returns a scalar in [1,n-1] whenever it terminates, it depends only on (seckey, message), and deterministic::sign_solo / adaptor::sign_solo outputs verify.", "quantifier": "every key and message, every hash function", "why_tests_cant": "retry loop taken with probability 2^-128", "anchors": ["src/deterministic.rs"]}
{"id": "C52", "title": "The deterministic nonce is the RFC6979 nonce", "statement": "derive_nonce_rfc6979 follows RFC6979 section 3.2 for SHA-256 and the group order n.", "quantifier": "every key and message", "why_tests_cant": "deviation only for digests >= n, never seen in tests", "anchors": ["src/deterministic.rs: derive_nonce_rfc6979"]}
{"id": "C53", "title": "Holdouts are exactly the missing signers, in order", "statement": "After any sequence of receive_nonce (resp. receive_signature) calls, holdouts() is the strictly increasing list of in-range indexes without an accepted contribution, never contains our own index, and is_complete() holds exactly when every index has one.", "quantifier": "every group size, every sequence of calls with arbitrary indexes and values, valid or not", "why_tests_cant": "all interleavings, duplicates and junk; relies on a binary search over a mutated vector", "anchors": ["src/rounds.rs: Slots, holdouts, is_complete"]}
{"id": "C54", "title": "The state machine never panics", "statement": "No sequence of public calls on FirstRound/SecondRound (new with in-limit spices, receive_*, finalize*, our_signature) panics.", "quantifier": "every history of calls", "why_tests_cant": "several unwrap/index expressions justified only by invariants over all histories", "anchors": ["src/rounds.rs"]}
{"id": "C55", "title": "Contributions are first-write-wins, idempotent and atomic", "statement": "receive_nonce returns OutOfRange for an index outside the group, Ok without change for the value already stored, InconsistentContribution for a different value, and otherwise stores it; a call that returns an error leaves the state unchanged.", "quantifier": "every reachable state, index and value", "why_tests_cant": "all states", "anchors": ["src/rounds.rs: Slots::place, receive_nonce"]}
{"id": "C56", "title": "Delivery order of nonces does not matter", "statement": "Two first rounds that accepted the same nonce per index, in any order and with any duplicates or rejected junk in between, finalize to the same aggregated nonce and partial signature, which are those of AggNonce::sum in index order.", "quantifier": "every pair of delivery histories with the same accepted contributions", "why_tests_cant": "factorially many interleavings", "anchors": ["src/rounds.rs: receive_nonce, finalize"]}
{"id": "C57", "title": "First-round finalization outcome is determined", "statement": "finalize returns Incomplete exactly when some nonce is missing; otherwise SigningError(UnknownKey) exactly when the key is not in the group; otherwise a SecondRound whose aggregated_nonce is the sum of all nonces and whose our_signature is the sign_partial result.", "quantifier": "every reachable first round, every key, message, adaptor point", "why_tests_cant": "all histories", "anchors": ["src/rounds.rs: finalize, finalize_adaptor"]}
{"id": "C58", "title": "The second round stores only valid partial signatures", "statement": "receive_signature returns Ok exactly when the index is in range and the signature verifies for that signer (given our own signature was made with our key); otherwise OutOfRange or InvalidSignature and the state is unchanged; InconsistentContribution cannot occur.", "quantifier": "every reachable second round, index and scalar", "why_tests_cant": "all histories; unreachability needs uniqueness of valid signatures", "anchors": ["src/rounds.rs: receive_signature"]}
{"id": "C59", "title": "A wrong member key is caught when the first round is finalized", "statement": "FirstRound::finalize with a secret key other than that of our own signer index returns an error ('Can also return an error if partial signing fails, probably because the wrong secret key was given').", "quantifier": "every complete first round and every wrong key, including other members' keys", "why_tests_cant": "only another member's key exhibits it", "anchors": ["src/rounds.rs: finalize_adaptor"]}
{"id": "C60", "title": "Every honest session ends with one valid signature for everybody", "statement": "For any group of honest signers, tweaks, adaptor-free message, seeds and spices, and any delivery schedule in each round including duplicates, self-deliveries, conflicting and junk contributions that arrive after the honest one (nonces) or at any time (signatures), every signer finalizes to the same signature, which passes verify_single for the aggregated key, provided the session nonce R1+b*R2 is finite.", "quantifier": "every group size, tweak sequence, message, and every delivery schedule per signer", "why_tests_cant": "unbounded signers and interleavings", "anchors": ["src/rounds.rs", "src/sig_agg.rs", "src/signing.rs"]}
{"id": "C61", "title": "Every honest adaptor session ends with one adaptor signature that the secret unlocks", "statement": "As the previous property with finalize_adaptor on both rounds: every signer obtains the same adaptor signature, it verifies for T, adapts with t to a valid signature and reveals t from it.", "quantifier": "every group size, adaptor secret, schedule", "why_tests_cant": "unbounded signers and interleavings", "anchors": ["src/rounds.rs: finalize_adaptor", "src/signature.rs"]}
{"id": "C62", "title": "Finalizing an adaptor session as a plain one is rejected", "statement": "If the first round was finalized with an adaptor point, SecondRound::finalize returns InvalidAggregatedSignature (documentation at rounds.rs:420-422).", "quantifier": "every complete adaptor second round", "why_tests_cant": "depends on hash values never produced in tests", "anchors": ["src/rounds.rs: SecondRound::finalize"]}
{"id": "C63", "title": "The single-aggregator flow is equivalent to the peer-to-peer flow", "statement": "sign_for_aggregator(sk, msg, aggnonce) returns the same partial signature as finalize(sk, msg).our_signature() when aggnonce is the sum of the nonces, and sign_for_aggregator works regardless of which nonces were received.", "quantifier": "every reachable first round and key, message, aggregated nonce", "why_tests_cant": "all histories", "anchors": ["src/rounds.rs: sign_for_aggregator, sign_for_aggregator_adaptor"]}
{"id": "C64", "title": "Reusing a nonce with different challenges reveals the secret key", "statement": "Two partial signatures by the same key and secret nonce whose session nonce coefficients agree (or three with arbitrary coefficients) and whose effective challenges differ determine the secret key by the stated formula; conversely one partial signature is consistent with every secret key for some nonce.", "quantifier": "every session pair/triple", "why_tests_cant": "explains why FirstRound must be consumed; algebra over all values", "anchors": ["src/nonces.rs: nonce_reuse_demo test 908-993", "doc/API.md: Nonce Reuse"]}
{"id": "C65", "title": "Tagged-hash constants are the SHA-256 digests of their tags", "statement": "Each *_TAG_DIGEST constant equals SHA-256 of the tag string in its comment, and the ten tag prefixes are pairwise different.", "quantifier": "the complete table of ten tags", "why_tests_cant": "a unit test does cover the values; pairwise separation and its use in all derived hashes is not tested", "anchors": ["src/tagged_hashes.rs"]}
{"id": "C66", "title": "Different protocol hashes never share an input", "statement": "The byte strings hashed for key lists, key coefficients, nonce coefficients, challenges, nonces, aux, batch seeds and taproot tweaks are pairwise different for all inputs (different tags), and within one tag the challenge input determines (R.x, P.x, message), the nonce-coefficient input determines (aggregated nonce, x-only key, message), and the coefficient input determines (list hash, key).", "quantifier": "every pair of protocol inputs", "why_tests_cant": "absence of collisions by construction for all inputs", "anchors": ["src/tagged_hashes.rs", "src/signing.rs", "src/nonces.rs", "src/key_agg.rs"]}
{"id": "C67", "title": "The key-list hash commits to the ordered key list", "statement": "Two different key lists give different inputs to the KeyAgg list hash; hence, unless that hash collides, different lists give different list commitments.", "quantifier": "every pair of lists", "why_tests_cant": "concatenation of variable number of keys must be unambiguous", "anchors": ["src/key_agg.rs: hash_pubkeys"]}
{"id": "C68", "title": "Point and scalar encodings are bijective", "statement": "Compressed point and scalar serializations used by all types are injective and their parsers accept exactly their image; -P serializes with the other prefix byte and the same x.", "quantifier": "every point and scalar, every 33- or 32-byte string", "why_tests_cant": "square roots mod p and boundary values p, n", "anchors": ["secp crate API as used throughout src/"]}
{"id": "C69", "title": "The curve group is cyclic of prime order n", "statement": "The curve group has prime order n, so scalar multiplication is a module over integers mod n: (a+b)P=aP+bP, every finite point is a unique multiple of G, and n*P is infinity; the arithmetic relied upon by all proofs is that of secp256k1 itself, not an assumption.", "quantifier": "all points of the curve", "why_tests_cant": "2^256 points", "anchors": ["secp crate API as used throughout src/"]}
{"id": "C70", "title": "A complete second round finalizes", "statement": "Once every signature was accepted by receive_signature and the round was started with the signer's own key, finalize_adaptor and finalize succeed, whatever nonces and signatures (valid, invalid, repeated) were delivered before, and the adaptor signature verifies; the only exception is an infinite session nonce R1+b*R2.", "quantifier": "every reachable first round, adaptor point, message and sequence of deliveries", "why_tests_cant": "the documentation says with overwhelming probability; which executions fail is not testable", "anchors": ["src/rounds.rs: SecondRound::finalize documentation 415-418"]}
{"id": "C71", "title": "Deterministic signing never uses one nonce with two challenges", "statement": "For one secret key, no two calls to deterministic::sign_solo or deterministic::adaptor::sign_solo with different inputs (message or adaptor point) produce signatures with the same nonce and different challenges.", "quantifier": "every key, message and pair of adaptor points", "why_tests_cant": "a single signature looks fine; only the relation between two calls leaks the key", "anchors": ["src/deterministic.rs: derive_nonce, sign_solo, adaptor::sign_solo", "src/bip340.rs: sign_solo_adaptor"]}
{"id": "C72", "title": "The nonce of a solo signature is the hash of a message-bound input", "statement": "The nonce point of sign_solo and adaptor::sign_solo is k*G, k being the BIP340/nonce tagged hash, mod n, of the masked secret key, the x-only public key and the message (1 in place of 0).", "quantifier": "every key, message, seed and adaptor point", "why_tests_cant": "vectors fix the value for a few inputs only, and none covers the zero hash", "anchors": ["src/bip340.rs: sign_solo_adaptor"]}
{"id": "C73", "title": "Signatures are not malleable", "statement": "For every key, message and nonce x coordinate at most one scalar verifies, and exactly one if the bytes are an x coordinate of the curve; two accepted 64-byte encodings with equal first halves are equal; adaptor signatures likewise have exactly one valid scalar for each nonce and adaptor point.", "quantifier": "every key, message, nonce and scalar", "why_tests_cant": "absence of a second signature cannot be tested", "anchors": ["src/bip340.rs: verify_single, adaptor::verify_single", "src/signature.rs: CompactSignature"]}
{"id": "C74", "title": "Two valid signatures sharing a nonce reveal the secret key", "statement": "Two signatures accepted by verify_single under one key, with the same nonce bytes and different challenges, determine the secret key by an explicit formula.", "quantifier": "every key, nonce, pair of messages", "why_tests_cant": "algebra over all values", "anchors": ["src/bip340.rs: verify_single"]}
{"id": "C75", "title": "A valid partial signature proves nothing about its signer", "statement": "For every member, session and scalar a public nonce can be computed from public data for which verify_partial accepts the scalar; as documented, partial signatures are not unforgeable.", "quantifier": "every reachable context, aggregated nonce, adaptor point, message, member, scalar and second nonce", "why_tests_cant": "existence for all sessions of a forged input", "anchors": ["README.md:20", "src/signing.rs: verify_partial documentation"]}
{"id": "C76", "title": "Aggregation depends on the partial signatures through their sum only", "statement": "When a full set of partial signatures verifies, another list aggregates exactly if it has the same sum, and to the same signature; replacing a single one makes aggregation fail and verify_partial reject exactly that signer; two compensating changes are invisible to aggregation.", "quantifier": "every reachable context, nonces, message, adaptor point, lists of any length", "why_tests_cant": "lists of every length, all scalars", "anchors": ["src/sig_agg.rs: aggregate_partial_signatures, adaptor::aggregate_partial_signatures", "src/signing.rs: verify_partial"]}
{"id": "C77", "title": "Encrypting a signature by several secrets adds them up", "statement": "Encrypting a signature by a list of secrets in turn yields an adaptor signature for the sum of the adaptor points: valid iff the signature is, decrypted by the sum of the secrets and (finite nonce) by nothing else, independent of the order.", "quantifier": "every signature and list of secrets", "why_tests_cant": "lists of any length", "anchors": ["doc/adaptor_signatures.md:221-240", "src/signature.rs: AdaptorSignature::encrypt, adapt, reveal_secret"]}
{"id": "C78", "title": "Completing an adaptor signature reveals the adaptor secret", "statement": "Given a valid adaptor signature with finite nonce, every valid signature on the same message and key with the nonce x coordinate of the adapted nonce, however produced, makes reveal_secret return the discrete logarithm of the adaptor point.", "quantifier": "every key, message, adaptor signature and completing signature", "why_tests_cant": "quantifies over adversarial completions", "anchors": ["src/signature.rs: AdaptorSignature::reveal_secret", "src/bip340.rs: adaptor::verify_single"]}
{"id": "C79", "title": "Plain tweaks compose and commute; x-only tweaks differ exactly on odd keys", "statement": "An accepted sequence of plain tweaks equals the single plain tweak by the sum (no change if the sum is zero) in any order; with_xonly_tweak equals with_plain_tweak exactly if the aggregated key is even.", "quantifier": "every context, tweak list", "why_tests_cant": "sequences of any length", "anchors": ["src/key_agg.rs: with_tweak, with_tweaks, with_plain_tweak, with_xonly_tweak"]}
{"id": "C80", "title": "The group signs exactly as the aggregated secret key would", "statement": "The key returned by aggregated_seckey produces solo signatures valid under the aggregated (tweaked) key, and every signature produced by aggregation has the single-signer form (k*G, k+e*d) for that key d.", "quantifier": "every context, secret keys, session", "why_tests_cant": "relates two independent signing paths for all inputs", "anchors": ["src/key_agg.rs: aggregated_seckey", "src/bip340.rs: sign_solo", "src/sig_agg.rs: aggregate_partial_signatures"]}
{"id": "C81", "title": "Taproot key-path sessions produce BIP341-spendable signatures", "statement": "If the signing context came from with_taproot_tweak (or with_unspendable_taproot_tweak), every honest session ends in a signature BIP340 accepts under the BIP341 output key of the untweaked key and the merkle root (or none); exception: an infinite session nonce.", "quantifier": "every group, merkle root, message and delivery order", "why_tests_cant": "composition of tweaking, state machine and verification for all orders", "anchors": ["src/key_agg.rs: with_taproot_tweak, with_unspendable_taproot_tweak", "src/rounds.rs"]}
{"id": "C82", "title": "FirstRound::new derives the nonce as documented", "statement": "FirstRound::new with message and secret-key spices has the secret nonce of the documented builder chain: seed, secret key, message, aggregated key, and the signer index as 4 big-endian bytes of extra input.", "quantifier": "every context, seed, index, key, message", "why_tests_cant": "the order of the builder calls and the spice is not tested", "anchors": ["doc/API.md:261-267", "src/rounds.rs: FirstRound::new", "src/nonces.rs: SecNonceBuilder"]}
{"id": "C83", "title": "A signature binds its message and key", "statement": "A signature valid for one key and message is valid for another message exactly if the two challenge hashes agree mod n, and for another key and message exactly if the two challenges carry the two even keys to the same point.", "quantifier": "every signature, pair of keys, pair of messages", "why_tests_cant": "a statement about all other messages and keys", "anchors": ["src/bip340.rs: verify_single"]}
{"id": "C84", "title": "A batch with an invalid signature passes for at most one in n-1 coefficient choices", "statement": "If some row of a batch is invalid, the number of coefficient vectors for which verify_batch accepts, times n-1, is at most the number of all coefficient vectors, whatever the number of rows and of invalid rows.", "quantifier": "every batch", "why_tests_cant": "a counting statement over all coefficient vectors", "anchors": ["src/bip340.rs: verify_batch"]}
{"id": "C85", "title": "serde round trips in human-readable formats", "statement": "Serialize followed by Deserialize is the identity for all encodable types in human-readable formats; Deserialize accepts exactly the hex (either case) of what from_bytes accepts, including the 97-byte form of secret nonces, and never panics.", "quantifier": "every value and string", "why_tests_cant": "all strings", "anchors": ["src/binary_encoding.rs: Serialize, Deserialize"]}
{"id": "C86", "title": "Conversions to secp256k1 and k256 signature types preserve the signature", "statement": "A secp256k1 Schnorr signature object converts to CompactSignature exactly when its scalar half is below the group order, to LiftedSignature exactly when moreover its nonce half is the x coordinate of a curve point; converting back gives the same 64 bytes; BIP340 validity of the 64 bytes is equivalent to conversion succeeding and verify_single accepting. A k256 pair (R, s) becomes the signature with the even one of R and -R and the same s, in both types consistently, and comes back as that pair. No conversion panics.", "quantifier": "all 64-byte arrays, all nonces (both parities) and scalars, all signatures, keys and messages", "why_tests_cant": "Tests convert a few random signatures, whose nonces are even and on the curve; they do not reach the rejected encodings, odd nonces, or the equivalence with verification.", "anchors": ["src/signature.rs:353-432"]}
{"id": "C87", "title": "A partial signature binds its signer's key and nonce, and its session", "statement": "Within a session, a partial signature accepted for one member and public nonce is accepted for another nonce of that member exactly if both have the same R1 + b R2, and from another member exactly if the challenge is zero or both have the same effective key. It is accepted in another session exactly if the signer would produce the same scalar there.", "quantifier": "all reachable contexts, members, nonces, adaptor points, messages and pairs of sessions", "why_tests_cant": "A test checks that some altered inputs are rejected; it cannot show that nothing else is accepted.", "anchors": ["src/signing.rs:144-223"]}
{"id": "C88", "title": "Forging signatures of a group for renewed hashes reveals a member's secret key", "statement": "If four signatures are valid for the aggregate of one key list, where the challenges differ within the two pairs (same nonce bytes) and only the coefficient of one member's key differs between the pairs, then that member's secret key is a stated function of these signatures, the challenges and the coefficients. The other keys are arbitrary, so choosing keys depending on a victim's key does not help a forger.", "quantifier": "all key lists (duplicates included), all four hash functions, nonces, scalars and messages", "why_tests_cant": "This is the extraction step of the security argument for key aggregation; it quantifies over adversarial keys and signatures.", "anchors": ["src/key_agg.rs:93-160", "src/bip340.rs:153-180"]}
{"id": "C89", "title": "Partial signatures that all verify for a vanishing nonce reveal the members' keys", "statement": "If all partial signatures of a session verify although R1 + b R2 is infinity, then any member's secret key is a stated function of the partial signatures and the other members' keys. So disrupting signers who do not know the victim's key cannot complete such a session without being caught by partial verification, which is what the replacement of the nonce by G is for.", "quantifier": "all reachable contexts, adaptor points, messages, nonce lists summing to a vanishing nonce, and accepted partial signatures", "why_tests_cant": "The situation has negligible probability for honest nonces and needs adversarial ones; the claim is an identity over all of them.", "anchors": ["src/nonces.rs:626-643", "src/signing.rs:144-223"]}
{"id": "C90", "title": "Only the adaptor secret unlocks an adaptor signature", "statement": "An adaptor signature valid for the adaptor point T becomes, by adapt(t), a valid BIP340 signature exactly if the adapted nonce R + tG is not infinity and either tG = T, or two challenge hashes for nonces with different x coordinates satisfy one equation in the signer's nonce and key: their difference is zero or plus or minus twice the nonce divided by the secret key. In particular the adaptor signature as it stands (t = 0) is not a valid signature without such a hash relation.", "quantifier": "all keys, messages, adaptor points, adaptor signatures with finite nonce, and scalars t", "why_tests_cant": "A test tries one wrong secret; the claim is about every scalar, and gives the exact exception.", "anchors": ["src/signature.rs:140-193", "src/bip340.rs:106-143", "doc/adaptor_signatures.md:3"]}
{"id": "C91", "title": "The signature of the last member decides", "statement": "If the partial signatures of all members but one verify, then a scalar completes the aggregation to a valid signature exactly if it passes partial verification as the partial signature of that last member. So the other members together cannot finish a session without a valid contribution of the last one.", "quantifier": "all reachable contexts, members, adaptor points, messages, nonce lists with finite final nonce, and accepted partial signatures of the others", "why_tests_cant": "Quantifies over every scalar that the other members might compute in place of the missing partial signature.", "anchors": ["src/sig_agg.rs:9-55", "src/signing.rs:144-223", "README.md"]}
{"id": "C92", "title": "An adaptor signature binds its adaptor point", "statement": "An adaptor signature valid for the adaptor point T is valid for T' exactly if T' = T or two challenge hashes for different nonces satisfy one equation. A decrypted signature passes adaptor verification exactly for the adaptor point infinity, with the same exception.", "quantifier": "all keys, messages, adaptor signatures with finite nonce, pairs of adaptor points, and valid signatures", "why_tests_cant": "A test checks that one other adaptor point is rejected.", "anchors": ["src/bip340.rs:106-143"]}
{"id": "C93", "title": "Tweaks and taproot outputs are binding", "statement": "Two tweaks of one kind lead from one context to the same aggregated key exactly if they are equal, and to the same x-only key exactly if they are equal or the discrete logarithm of the tweaked (for x-only tweaks: even) key is -(t+t')/2. Two merkle roots, or a merkle root and with_unspendable_taproot_tweak, give the same x-only output key exactly if their TapTweak hashes collide, or if the discrete logarithm of the internal key is minus half the sum of these hashes.", "quantifier": "all contexts, pairs of tweaks, pairs of merkle roots", "why_tests_cant": "Binding is a claim about all pairs; no test can exclude a second opening of a commitment.", "anchors": ["src/key_agg.rs:144-160", "src/key_agg.rs:281-328"]}
{"id": "C94", "title": "A lying aggregator can only make signing fail", "statement": "Whatever aggregated nonce an aggregator hands out, every member that signs for it with sign_for_aggregator succeeds, and the partial signatures aggregate exactly if the final nonce of that aggregated nonce is R1 + b*R2 for the true sum of the members' public nonces; then the result is a valid (adaptor) signature of the group with that nonce. In all other cases aggregation returns BadSignature.", "quantifier": "all contexts, groups of all sizes, aggregated nonces, adaptor points, messages and round states", "why_tests_cant": "A test supplies a few wrong nonces; the claim covers every nonce an adversary could choose, in particular those chosen after seeing all public nonces.", "anchors": ["src/rounds.rs:275-340", "src/sig_agg.rs:17-92"]}
{"id": "C95", "title": "Adaptor signatures for one adaptor point are an atomic swap", "statement": "If two adaptor signatures (of any two keys or groups, on any two messages) are valid for the same adaptor point, the nonce of the first and both adapted nonces not being infinity, then from any 64 bytes that BIP340 accepts for the first message and that carry the adapted nonce of the first, reveal_secret yields the discrete logarithm of the adaptor point, and adapting the second with it yields a signature that BIP340 accepts for the second message.", "quantifier": "all keys, messages, adaptor points, valid adaptor signatures and published signatures", "why_tests_cant": "The counterparty chooses what is published; a test only sees the signature made by adapt.", "anchors": ["src/signature.rs:185-235", "src/bip340.rs:117-180", "src/rounds.rs:449-470"]}
{"id": "C96", "title": "Signing and verification have no outcomes beyond the documented ones", "statement": "verify_single and its variants, verify_single_adaptor, verify_batch and signature aggregation end in acceptance or BadSignature; verify_partial ends in acceptance, BadSignature or UnknownKey; sign_partial succeeds or returns UnknownKey; aggregated_seckey succeeds or returns its error; sign_solo and the accessors of a context always succeed. None of them panics, on any input.", "quantifier": "all byte strings, keys, signatures, nonces, messages, adaptor points, batches and reachable contexts", "why_tests_cant": "Absence of panics over all inputs, including adversarial points at infinity and vanishing sums, cannot be sampled.", "anchors": ["src/bip340.rs:31-310", "src/signing.rs:49-220", "src/sig_agg.rs:17-92", "src/key_agg.rs:330-470"]}
{"id": "C97", "title": "Contexts are decoded alike on every platform", "statement": "KeyAggContext::from_bytes gives the same result whatever the width of usize and whether or not arithmetic overflow is checked; in particular it never panics, and never accepts bytes after the last key.", "quantifier": "all byte strings, and all targets with a usize of at least 32 bits, with overflow wrapping or panicking", "why_tests_cant": "Tests run on the developer's 64-bit machine; the multiplication that overflows on other targets is reached only with counts near 2^32/33 and above.", "anchors": ["src/key_agg.rs:584-630"]}
{"id": "C98", "title": "The limit on extra inputs holds on every platform", "statement": "Adding an extra input to a nonce builder panics exactly if the lengths of all extra inputs then add up to more than u32::MAX bytes, whatever the width of usize and whether or not arithmetic overflow is checked.", "quantifier": "all targets with a usize of at least 32 bits, all builders, all extra inputs", "why_tests_cant": "Reaching the limit takes 4 GiB of input on the developer's machine, and the behaviour on other targets is not observed at all.", "anchors": ["src/nonces.rs:55-64", "src/nonces.rs:280-306"]}
{"id": "C99", "title": "Keys made from a victim's key are of no use to an attacker", "statement": "If the keys of a group are combinations alpha*G + beta*P of the generator and a victim's key P, then with A and B the sums of alpha and beta weighted with the BIP327 coefficients: if B = 0, the secret key of the aggregate is a stated number; if B is not 0, the aggregate has the secret key x exactly if P has the secret key ((x - t)*g - A)/B. In particular who joins a victim with the key xG - P (the classical rogue key) knows the aggregate's secret key exactly if they know the victim's, unless the victim's coefficient is 1.", "quantifier": "all reachable contexts, victim's keys, and representations of the keys", "why_tests_cant": "The claim quantifies over all adversarially made keys; a test can only exhibit one attack that fails.", "anchors": ["src/key_agg.rs:93-160", "src/key_agg.rs:500-517", "README.md"]}
{"id": "C100", "title": "Signatures made from a victim's key reveal its secret key", "statement": "If key and nonce of a signature are combinations of G and a victim's key P, with coefficients the forger knows, then for every scalar s the signature is accepted exactly if the secret key of P is a stated function of s and the coefficients. The exception is that P cancels from the verification equation, which takes one particular value of the challenge hash; then exactly one stated s is accepted. The same holds for the aggregated key of a group whose other members' keys are made from P.", "quantifier": "all keys, nonces, representations, messages, scalars and reachable contexts", "why_tests_cant": "This is the security argument against algebraic forgers; it quantifies over adversaries.", "anchors": ["src/bip340.rs:146-180", "src/key_agg.rs:93-160"]}
{"id": "C101", "title": "A session signs at most once", "statement": "Whatever methods are called on a FirstRound and the SecondRound made from it, in any order, with any arguments, whether they succeed or fail: all partial signatures these calls return are equal and come from one signing operation, which uses the arguments of the first call that signs and the nonces received before. So a secret nonce held by a session cannot be used for two messages.", "quantifier": "all hash functions, reachable first rounds, and finite sequences of method calls with all arguments", "why_tests_cant": "A statement about all interleavings of calls; a test runs a few.", "anchors": ["src/rounds.rs:170-340", "src/rounds.rs:356-400"]}
{"id": "C102", "title": "Decoding failures are reported with their documented reason", "statement": "from_bytes of public, aggregated and secret nonces, compact, lifted and adaptor signatures and key aggregation contexts reports BadLength with the input's length exactly if the length is wrong, InvalidPoint exactly if it meets 33 (or 32) bytes that are no admissible point, InvalidScalar exactly if a scalar is out of its range, in a fixed order of precedence; for contexts also the failed key aggregation and the failed tweak. In all other cases it succeeds. For contexts the result is given case by case for every input. from_hex reports an odd or excessive length and characters that are no digits as BadHexFormat, and otherwise what from_bytes reports for the bytes.", "quantifier": "all byte strings, all hash functions", "why_tests_cant": "The iff quantifies over all byte strings; tests feed a few malformed inputs per type.", "anchors": ["src/errors.rs:275-300", "src/binary_encoding.rs:51-64", "src/nonces.rs:640-730", "src/signature.rs:250-325", "src/key_agg.rs:584-630"]}
{"id": "C103", "title": "Completed sessions agree, whatever the network does", "statement": "Let the network deliver any nonces and partial signatures to the signers, in any order and any number of times. Whatever a second round returns is valid for that signer's own aggregated key, message and adaptor point. Two signers that finish with the same aggregated key, aggregated nonce, adaptor point and message return the same signature, even if the individual nonces and partial signatures they were told differ. A signer whose view of the session differs (other nonces, message or adaptor point) has its partial signature accepted exactly if it would have made the same one in the other's view.", "quantifier": "all reachable first rounds, keys, adaptor points, messages, and all sequences of deliveries", "why_tests_cant": "The adversary is the network: the claim is about all deliveries; tests deliver the honest messages.", "anchors": ["src/rounds.rs:98-340", "src/rounds.rs:356-460"]}
{"id": "C104", "title": "Texts of errors identify the failure", "statement": "Two errors of the types SignerIndexError, SigningError, VerifyError, RoundContributionError or RoundFinalizeError that are displayed alike are equal: reason, signer index and group size can be read off the text. A RoundContributionError names the signer's index in decimal between 'invalid signer index ' and the colon; index and group size stand in decimal where the words of the text say, and so does an unexpected length. The text of a DecodeError tells its reason, and a wrong length, if the texts it takes from other crates are told apart.", "quantifier": "all error values, all indexes and group sizes", "why_tests_cant": "Ambiguity could hide in any pair of numbers; a test compares a few texts.", "anchors": ["src/errors.rs:69-77", "src/errors.rs:102-138", "src/errors.rs:209-260", "src/errors.rs:339-388"]}
{"id": "C105", "title": "Secret nonces are almost uniform functions of the hash", "statement": "Let the hash function be any, and draw anew its answer to the byte string that gives a secret nonce. Then for every set of scalars, the probability that the nonce lies in the set differs from the set's share of all non-zero scalars by less than 2^-127. This holds for both nonces of SecNonceBuilder::build, which come from different answers, and for the nonce of solo signing.", "quantifier": "all hash functions, builder configurations, keys, messages, seeds and adaptor points; all sets of scalars", "why_tests_cant": "A bias of this size, or one on a set of scalars nobody thought of, is out of reach of sampling; a small bias of nonces reveals keys.", "anchors": ["src/nonces.rs:333-405", "src/bip340.rs:31-79"]}
{"id": "C106", "title": "Signatures fixed before their challenge pass with negligible probability", "statement": "Let the hash function be any, and draw anew its answer to the byte string that gives the challenge. A signature (plain, adaptor or partial) that was fixed before passes verification for at most two of the 2^256 answers, for every key, message, nonce and adaptor point; for partial signatures if the signer's coefficient is not 0.", "quantifier": "all hash functions, keys, signatures, messages, adaptor points, reachable contexts", "why_tests_cant": "The claim counts over 2^256 answers and quantifies over all forged signatures.", "anchors": ["src/bip340.rs:117-180", "src/signing.rs:147-189"]}
{"id": "C107", "title": "One hash answer cannot be aimed at a given key or nonce", "statement": "Let the hash function be any, and draw anew its answer to one byte string. For the string of one key's coefficient (not the second key's), the aggregated key equals a given point for at most two of the 2^256 answers, whatever the other keys, and aggregation fails for at most two. For the string of a taproot tweak, the tweaked key equals a given point for at most one answer. For the string of the nonce coefficient, the final nonce equals a given point for at most two answers (four if the point is the generator), if the second aggregated nonce is not infinity.", "quantifier": "all hash functions, key lists, contexts, merkle roots, aggregated nonces, messages, and target points", "why_tests_cant": "The claim counts over 2^256 answers and quantifies over all adversarial keys and targets.", "anchors": ["src/key_agg.rs:93-143", "src/key_agg.rs:267-305", "src/nonces.rs:606-650"]}
{"id": "C108", "title": "Who can forge signatures can compute the secret key", "statement": "Let the answers of the hash function to challenge strings be drawn at random, all others being given. If a forger that asks for at most q challenges, adaptively, submits with probability acc a message and a signature that verify_single accepts for a key P, then an explicit extractor that runs it twice and knows no secret outputs the secret key of P with probability at least acc^2/(q+1) - 2 acc/2^256. If P is the aggregated key of a group whose keys are made from G and a victim's key, the victim's secret key is obtained likewise, unless the coefficients cancel it.", "quantifier": "all forgers (adaptive, unbounded, of any number of queries), keys, reachable contexts, and hash functions for the strings that are not challenges", "why_tests_cant": "Unforgeability quantifies over all adversaries; no test can exercise it.", "anchors": ["src/bip340.rs:153-180", "src/key_agg.rs:93-143"]}
{"id": "C109", "title": "Who can forge signatures of a group with keys of their choice can compute the victim's secret key", "statement": "Let the answers of the hash function to challenges and to coefficients of a victim's key P be drawn at random, all others being given. A forger that asks for at most q of them, adaptively, submits with probability acc a list of keys that contains P, all others chosen by the forger, and a message and a signature that verify_single accepts for the key that KeyAggContext::new computes. If the forger submits no two key lists with the same hash, an explicit extractor that runs it four times and knows no secret outputs the secret key of P with a probability bounded from below by applying f(t) = t^2/(q+2) - 2t/2^256 twice to acc - 2(q+2)^2/2^256. This holds if P is not the second distinct key of the list (whose coefficient is one), and, with the coefficients of the other keys drawn, if P is the second of two distinct keys.", "quantifier": "all forgers (adaptive, unbounded, of any number of queries), victims, and hash functions for the strings that are not drawn", "why_tests_cant": "Security against rogue keys quantifies over all adversaries and all key lists they may choose.", "anchors": ["src/key_agg.rs:93-143", "src/key_agg.rs:492-518", "src/bip340.rs:153-180"]}
{"id": "C110", "title": "Formatting never panics, has the documented case, and is parsed back", "statement": "For every secret, public and aggregated nonce, every compact, lifted and adaptor signature and every context, {:x} and {:X} return without a panic and write exactly two digits per byte of to_bytes, in lower and in upper case; Display writes the lower-case form and from_str of it returns the same value; serde writes lower case in human-readable formats. A secret nonce converted from 97 bytes is that of the first 64 bytes.", "quantifier": "all values of the types with an encoding (contexts made by the API, lifted signatures with an even nonce for parsing)", "why_tests_cant": "The buffers have sizes fixed in a macro call and the result is unwrapped; that no value overflows one is a claim about all values.", "anchors": ["src/binary_encoding.rs:35-49", "src/binary_encoding.rs:97-109", "src/binary_encoding.rs:188-204", "src/binary_encoding.rs:286-295", "src/nonces.rs:728-734", "src/signature.rs:322-328", "src/key_agg.rs:632-633"]}
{"id": "C111", "title": "Signatures received do not help to forge", "statement": "Let the answers of the hash function to challenge strings be drawn at random, and in each call of sign_solo also its answer to the nonce string, all others being given. A forger asks for at most q challenges and for at most s signatures of messages of its choice, adaptively, and submits with probability acc a message and a signature, other than those received, that verify_single accepts for the signer's key. Then an explicit extractor that runs it twice without the signer outputs the secret key with probability at least max(0, t^2/(q+1) - 2t/2^256), where t = acc - 2s(q+s)/(n-1) - s/2^127 (or 0 if that is negative). Signatures have the same distribution as transcripts that can be drawn without the secret key.", "quantifier": "all forgers (adaptive, unbounded, of any number of queries of both kinds), secret keys, seeds, and hash functions for the strings that are not drawn", "why_tests_cant": "Strong unforgeability under chosen messages quantifies over all adversaries and interleavings of their questions.", "anchors": ["src/bip340.rs:31-104", "src/bip340.rs:153-180"]}
{"id": "C112", "title": "What others see of a signer in one session can be made up without the secret key", "statement": "Let a signer's two nonces and the hash answers giving nonce coefficient and challenge be drawn at random. The others see the public nonce and both answers, reply with any aggregated nonce, adaptor point and message, and receive the partial signature of sign_partial. For every key context made by the API and every reply strategy, this view has the same distribution as that of an explicit simulator which knows only the signer's public key and coefficient, given that the simulator succeeds, which it does with probability (n-1)/(2n). The signer never fails.", "quantifier": "all reachable contexts with any tweaks, secret keys of members, reply strategies (adaptive, unbounded), hash functions for all other strings, and sets of views", "why_tests_cant": "That nothing is revealed is a claim about distributions and about all strategies of the others.", "anchors": ["src/signing.rs:21-132", "src/nonces.rs:606-645"]}
{"id": "C113", "title": "Taking part in a session does not help to forge", "statement": "Let the hash answers to challenge and nonce-coefficient strings be drawn at random, all others being given. A forger that asks for at most q challenges and c nonce coefficients, adaptively, takes part in one session with a member of a group (it sees the member's public nonce, replies with an aggregated nonce, adaptor point and message of its choice, receives the partial signature of sign_partial_adaptor) and submits with probability acc a signature of another message that verify_single accepts for the aggregated key. Then an explicit extractor that runs it twice without the signer outputs the discrete logarithm of the aggregated key, and the signer's secret key if the other members' keys are known, with probability at least max(0, t^2/(q+2) - 2t/2^256), where t = acc (n-1)/(2n(c+1)(q+2)).", "quantifier": "all forgers (adaptive, unbounded, of any number of queries), reachable contexts with any keys and tweaks, secret keys of members, and hash functions for the strings that are not drawn", "why_tests_cant": "Unforgeability in the presence of a signer quantifies over all adversaries and interleavings of their questions with the session.", "anchors": ["src/signing.rs:21-132", "src/nonces.rs:606-645", "src/bip340.rs:153-180"]}
{"id": "C114", "title": "serde round trips in binary formats", "statement": "In binary serde formats, deserializing accepts exactly the byte strings that from_bytes accepts, with the same value, and never panics; a serialized context is always returned; a serialized nonce or signature is returned exactly if serdect::array passes arrays to the format as byte strings (it is read by serdect::slice) and is an error otherwise.", "quantifier": "all values, all byte strings, both ways in which arrays may be passed", "why_tests_cant": "All values and all inputs of every length, including hostile ones; tests only run the JSON format.", "anchors": ["src/binary_encoding.rs:143-171", "src/binary_encoding.rs:257-279"]}
{"id": "C115", "title": "Open sessions do not help to forge, with adaptor points chosen at any time", "statement": "A signer who never reuses a nonce may follow many sessions at once, and the others may choose the adaptor point of a session after the nonces are exchanged: they never obtain a signature that verify_single accepts for the aggregated key and a message which the signer did not sign.", "quantifier": "all reachable contexts, secret keys, 256 sessions with any nonces and messages, hash functions, and messages to forge", "why_tests_cant": "The attack runs across sessions, each of which is correct on its own; tests run one session at a time.", "anchors": ["src/signing.rs:21-101", "src/nonces.rs:606-645", "src/rounds.rs:189-240"]}
{"id": "C116", "title": "Any number of sessions and groups at once does not help to forge, with adaptor points fixed beforehand", "statement": "Let the hash answers to challenge and nonce-coefficient strings be drawn at random, all others being given. A forger, adaptively and in any order, asks for at most q such answers, opens at most k sessions with a signer who is a member of a family of groups, which may be the same keys under different tweaks and of which no two have the same x-only aggregated key (it names an adaptor point, or none, and then sees the member's public nonce), replies in any open session with a group, an aggregated nonce and a message and receives the partial signature of sign_partial_adaptor. With each challenge it asks for it says how the nonce is a combination of G, the member's key and the public nonces seen so far (the algebraic group model). It submits with probability acc a signature that verify_single accepts for the aggregated key of one of the groups, and that is not what a session was about: no session of that group has both its message and its x-only nonce. So a second signature of a message that was signed counts too, if the nonce is another. Then an explicit solver that is given only public data, runs it once, and asks for at most 2k discrete logarithms of points of its choice outputs the secret key and all 2k secret nonces, with probability at least acc - (k+2)N(N+1)/2^256, where N = q+2k+1.", "quantifier": "all algebraic forgers (adaptive, any number of questions and of sessions open at the same time), families of reachable contexts with any tweaks whose other keys are known combinations, secret keys, secret nonces, and hash functions for the strings that are not drawn", "why_tests_cant": "Unforgeability with interleaved sessions quantifies over all adversaries and all interleavings.", "anchors": ["src/signing.rs:21-132", "src/nonces.rs:606-645", "src/bip340.rs:153-180"]}
{"id": "C117", "title": "A member's key does not cancel from the aggregated key", "statement": "Let the keys of a group be combinations alpha*G + beta*P of the generator and a member's key P. If the coefficient of a key that is not the second distinct one and whose beta is not zero is drawn, the sum of the betas weighted with the key aggregation coefficients takes a given value (in particular zero, when P would cancel from the aggregated key) with probability at most 2/2^256, whatever the other keys. If only the second distinct key has beta not zero the sum is never zero. So the statement about concurrent sessions holds for groups given by their keys, with that coefficient drawn too, without assuming that P does not cancel.", "quantifier": "all lists of keys with known combinations, members, hash functions elsewhere, and in the last part all algebraic forgers as before", "why_tests_cant": "A probability over the answers of the hash function for all lists of keys.", "anchors": ["src/key_agg.rs:93-143", "src/key_agg.rs:492-518", "src/signing.rs:21-132"]}
{"id": "C118", "title": "Random nonces and seeds are uniform and independent", "statement": "If the caller's generator draws independent uniform non-zero scalars, then m calls of SecNonce::random yield every list of m public nonces with the same probability 1/(n-1)^(2m), using exactly two scalars each in order, and no two of the 2m points agree except with probability at most (2m)^2/(n-1). SecNonce::build and generate with a generator take one block of 32 bytes as the seed and are otherwise what they are with that seed; m such seeds are different except with probability at most m^2/2^256.", "quantifier": "all numbers of calls, lists of public nonces, generators", "why_tests_cant": "A statement about the distribution of values that tests draw once; reuse of randomness between the two nonces or between calls would go unnoticed.", "anchors": ["src/nonces.rs:19-45", "src/nonces.rs:431-443", "src/nonces.rs:487-528"]}
{"id": "C119", "title": "Making up groups during the game does not help to forge, with adaptor points fixed beforehand", "statement": "Let the hash answers to the strings of key aggregation, nonce coefficients and challenges be drawn at random, all others being given. A forger is given one public key. Adaptively and in any order, it asks for hashes, opens at most k sessions with the owner of the key (it names an adaptor point, or none, and receives the public nonce), and in each obtains at most one partial signature for keys, tweaks, an aggregated nonce and a message of its choice, the keys including the owner's; in all at most q strings are drawn. It submits a signature that verify_single accepts for the key of a group of its choice with the owner in it, such that no session has its message, its x-only key and its x-only nonce. So a second signature of a signed message counts too, if the nonce is another. It says how the keys and nonces it uses are combinations of the points it has seen. Then a solver that is given public data only and runs the forger once finds the secret key and all secret nonces, asking for one discrete logarithm less than it finds, with the same probability up to ((k+7)q(q+1) + 2^34 q)/2^256.", "quantifier": "all algebraic forgers (adaptive, any number of questions, sessions and groups), secret keys, secret nonces, and hash functions for the strings that are not drawn", "why_tests_cant": "Rogue keys chosen during interleaved sessions are an adversary's move; tests fix the groups.", "anchors": ["src/key_agg.rs:93-143", "src/key_agg.rs:492-518", "src/signing.rs:21-132", "src/nonces.rs:606-645", "src/bip340.rs:153-180"]}
{"id": "C120", "title": "With random nonces, forging is as hard as the one-more discrete logarithm problem", "statement": "Let the secret key, the nonces of SecNonce::random and the hash answers of key aggregation, nonce coefficients and challenges be drawn. A forger as in C119, given the public key, with k sessions and q answers, succeeds with at most the probability that an explicit program, which is given 2k+1 random points and asks for at most 2k discrete logarithms, finds all 2k+1 of theirs, plus ((k+7)q(q+1) + 2^34 q)/2^256.", "quantifier": "all algebraic forgers (adaptive, any number of questions, sessions and groups), and hash functions for the strings that are not drawn", "why_tests_cant": "A reduction over all adversaries.", "anchors": ["src/nonces.rs:431-434", "src/nonces.rs:487-500", "src/signing.rs:21-132", "src/key_agg.rs:93-143", "src/bip340.rs:153-180"]}
{"id": "C121", "title": "With nonces from fresh seeds, forging is as hard as the one-more discrete logarithm problem", "statement": "The same when the signer builds the nonces with SecNonceBuilder::build from random seeds, as FirstRound::new and SecNonce::generate do, with any secret key, aggregated key, message and extra inputs put into the builder, which may depend on the secret key and on the hash answers but not on the seeds. The hash function is the same for signer and forger. With m further hash questions of the forger the bound grows by at most 2k(k+m)/2^256 + k/2^126.", "quantifier": "all algebraic forgers, all settings of the nonce builders, and hash functions for the strings that are not drawn", "why_tests_cant": "That seeds are hashed into unpredictable nonces, and that putting the secret key in too does no harm, is a statement about all adversaries.", "anchors": ["src/nonces.rs:333-378", "src/nonces.rs:461-480", "src/rounds.rs:98-150", "src/signing.rs:21-132", "src/bip340.rs:153-180"]}
{"id": "C122", "title": "Nobody finds a batch of plain signatures that passes verify_batch although one is invalid", "statement": "Let the answers of the hash function to the strings of challenges and batch seeds, and the scalars that the generator yields for each seed, be drawn at random. Somebody who asks adaptively for at most q of them, in any order, and then submits at most L plain signatures (keys, messages, even nonces and scalars of their choice) makes verify_batch accept a batch in which verify_single rejects some signature with probability at most (L+1)(q+L+2)(q+L+3)/2^256. With adaptor signatures in the batch three questions suffice to succeed always.", "quantifier": "all adaptive programs that ask for hashes and outputs of the generator, all sizes of batches, all hash functions elsewhere", "why_tests_cant": "Tests try batches with one signature altered; a batch made to pass is found by searching, which the seed is there to prevent.", "anchors": ["src/bip340.rs:189-245", "src/bip340.rs:267-310"]}
{"id": "C123", "title": "Adaptor signatures received do not help to forge, and completing one reveals the adaptor secret", "statement": "Let the hash answers to challenge strings and to the nonce string of each call be drawn at random. A forger asks adaptively for at most q challenges and for s adaptor signatures made by sign_solo_adaptor with one secret key, of messages and with adaptor points of its choice. If it submits, with probability acc, a message and a signature that verify_single accepts, but from which reveal_secret with none of the adaptor signatures received for this message gives the discrete logarithm of the adaptor point, then two runs of the forger without the signer yield the secret key with the probability of the forking lemma for acc less 2s(q+s)/(n-1) + s/2^127. The adaptor signatures have the distribution of transcripts that are drawn without the secret key.", "quantifier": "all adaptive forgers with any numbers of questions, all messages and adaptor points, all secret keys and seeds, all hash functions for the strings that are not drawn", "why_tests_cant": "A reduction over all adversaries; tests complete the adaptor signatures they made themselves.", "anchors": ["src/bip340.rs:31-104", "src/bip340.rs:153-180", "src/signature.rs:185-222"]}
{"id": "C124", "title": "Choosing the seeds of the signer, and hashing nonces, does not help to forge", "statement": "Let the hash answers to the strings of challenges and of nonces of sign_solo_adaptor be drawn at random, all others being given. A forger asks adaptively for at most q challenges and m hashes of nonces, and for s adaptor signatures made by sign_solo_adaptor with one secret key, with messages, seeds and adaptor points of its choice, the same seed as often as it likes. If, with probability acc, it submits a message and a signature that verify_single accepts and that does not complete an adaptor signature received for this message, while no nonce was used with two adaptor points, then two runs without the signer yield the secret key with the probability of the forking lemma for acc less 2s(q+1+s)/(n-1) + s/2^127. The game is the one with a single hash function for forger and signer.", "quantifier": "all adaptive forgers with any numbers of questions, all messages, seeds and adaptor points, all secret keys, all hash functions for the strings that are not drawn", "why_tests_cant": "A reduction over all adversaries; tests use the seeds of the test vectors.", "anchors": ["src/bip340.rs:31-104", "src/bip340.rs:153-180", "src/signature.rs:185-222"]}
{"id": "C125", "title": "Deterministic signatures do not help to forge", "statement": "Let the hash answers to the strings of challenges, and to the strings that deterministic signing hashes between the message and the nonce (HMAC of RFC 6979, the seed, the nonce), be drawn at random, all others being given. A forger asks adaptively for at most q challenges and m other hashes, and for s adaptor signatures made by deterministic::adaptor::sign_solo with one secret key, of messages and with adaptor points of its choice, the hash function being the same for forger and signer. If, with probability acc, it submits a message and a signature that verify_single accepts and that does not complete an adaptor signature received for this message, while it never asks for one message with two adaptor points, then two runs without the signer yield the secret key with the probability of the forking lemma for acc less 2s(q+2s+1)/(n-1) + 11s(m+13s)/2^256 + s/2^126.", "quantifier": "all adaptive forgers with any numbers of questions, all messages and adaptor points, all secret keys, all hash functions for the strings that are not drawn", "why_tests_cant": "A reduction over all adversaries; tests compare a few nonces of the RFC.", "anchors": ["src/deterministic.rs:24-110", "src/bip340.rs:31-104", "src/bip340.rs:153-180"]}
{"id": "C126", "title": "Who forges signatures of any group with the victim can compute the victim's key", "statement": "Let the hash answers to challenges and to all key aggregation coefficients be drawn at random, all others being given. A forger who sees the victim's public key asks adaptively for at most q challenges and r coefficients, and submits a list of at most N keys that contains the victim's, at any position and any number of times, a list of tweaks for with_tweaks, a message and a signature. If with probability acc verify_single accepts it for the key that KeyAggContext::new and with_tweaks compute, then four runs yield the victim's secret key, or two different key lists with the same hash, with the probability of the forking lemma, applied twice, for acc less (r+N)/2^127.", "quantifier": "all adaptive forgers with any numbers of questions, all keys, key lists, tweaks and messages, all hash functions for the strings that are not drawn", "why_tests_cant": "A reduction over all adversaries, among them rogue-key attackers; tests aggregate given keys.", "anchors": ["src/key_agg.rs:93-143", "src/key_agg.rs:200-265", "src/key_agg.rs:492-518", "src/bip340.rs:153-180"]}
{"id": "C127", "title": "The signature of a group cannot be told from that of a single private key", "statement": "Let the hash answers that become the nonce coefficients of a group and a message be drawn at random, and the two nonces of one member too, or the hashes that SecNonceBuilder makes them of; keys, tweaks, message, adaptor secret and the nonces of the other members are any. For every test of 64 bytes that may use the whole hash function except the answers that became nonces, the probability that the group produces a signature (sign_partial or adaptor::sign_partial by all, aggregation, adapt) that passes the test differs from that for sign_solo with the aggregated secret key and a drawn nonce hash by at most 1/2^124.", "quantifier": "all tests, without any bound on their work; all reachable contexts with known secret keys, tweaked or not, all messages, adaptor secrets and nonces of the others", "why_tests_cant": "Indistinguishability compares two probability distributions under every test; unit tests look at single signatures.", "anchors": ["README.md:5", "src/signing.rs:21-132", "src/sig_agg.rs:17-84", "src/bip340.rs:31-104", "src/nonces.rs:333-378", "src/signature.rs:185-205"]}
{"id": "C128", "title": "An aggregated key, and a taproot output made of it, commits to the ordered list of members", "statement": "Let the hash answers to key lists, key aggregation coefficients and taproot tweaks be drawn at random, all others being given. Whoever adaptively asks for at most q of them and submits two groups of at most N keys each, with a merkle root or none, has a chance of at most (q+2N+4)^2/2^255 that the key lists differ (or have the same keys in different orders) but KeyAggContext::new gives aggregated keys with the same x coordinate, or that the groups differ in keys or merkle root but with_taproot_tweak or with_unspendable_taproot_tweak give keys with the same x coordinate. For given lists with different list hashes the chance is at most 4/2^256. It is not zero for every hash function.", "quantifier": "all adaptive programs with any number of questions, all key lists of any length, all merkle roots, all hash functions for the strings that are not drawn", "why_tests_cant": "The documentation promises a different key for every different order; tests compare a few lists, and no test can look for collisions.", "anchors": ["src/key_agg.rs:45-51", "src/key_agg.rs:93-143", "src/key_agg.rs:267-331", "src/key_agg.rs:492-518"]}
{"id": "C129", "title": "Different inputs give different nonces, even if the random number generator is broken", "statement": "Let the hash answers to the strings of seeds and nonces (of SecNonceBuilder::build and of solo signing) be drawn at random, all others being given. Whoever adaptively asks for at most q of them and submits the inputs of two calls, with seeds of its choice, equal ones for instance, has a chance of at most 3(q+6)^2/2^256 that the inputs differ but the calls have a nonce in common up to sign, or that the two nonces of one call are the same up to sign. Inputs that count are public key, x coordinate of the aggregated key, message, extra input, and seed or secret key while the other one of the two is the same; for SecNonce::generate any difference counts. A secret key chosen to be the difference of the hashes of two seeds, in a builder with other inputs than those of generate, gives the same nonces.", "quantifier": "all adaptive programs with any number of questions, all seeds, keys, messages and extra inputs, all hash functions for the strings that are not drawn", "why_tests_cant": "The documentation recommends these inputs because they help if the RNG fails silently; no test can look for collisions.", "anchors": ["src/nonces.rs:66-73", "src/nonces.rs:333-405", "src/nonces.rs:461-485", "src/bip340.rs:31-104"]}
{"id": "C130", "title": "An aggregated key, and a taproot output made of it, looks like the key of a single signer", "statement": "Let the hash answers to key lists, key aggregation coefficients and taproot tweaks be drawn at random, all others being given. Whoever adaptively asks for at most q of them, chooses a list of other members, the place of one more member whose secret key is drawn, and a merkle root or none, is shown a key, asks for at most q' more and says yes or no, says yes with almost the same probability whether the key is the one KeyAggContext::new computes for the group or that of a single signer with a random secret key: the difference is at most 6(q+q')/2^256 + 1/2^125. If with_taproot_tweak or with_unspendable_taproot_tweak is applied as well it is at most 10(q+q')/2^256 + 1/2^124. For two lists of other members chosen by them, the keys of the two groups differ in this respect by at most 12(q+q')/2^256 + 1/2^124.", "quantifier": "all adaptive programs with any number of questions, all lists of other members up to the limit of the code, all places of the unknown member, all merkle roots, all hash functions for the strings that are not drawn", "why_tests_cant": "Indistinguishability compares probability distributions under every program; unit tests look at single keys.", "anchors": ["README.md:5", "src/key_agg.rs:93-143", "src/key_agg.rs:267-331", "src/key_agg.rs:492-518"]}
{"id": "C131", "title": "Any number of signatures, of any groups, cannot be told from those of single private keys", "statement": "Let there be k sessions of groups: the members, tweaks, messages, adaptor secrets and the nonces of all members but one may be the same or different in every session. Let the hash answers that become the nonce coefficients be drawn at random, and the two nonces of one member in each session. For every test of all k signatures together that may use the whole hash function, the probability that all sessions produce signatures (sign_partial or adaptor::sign_partial by all, aggregation, adapt) that pass the test differs by at most k/2^125 from that for one signer for each session, who has the aggregated secret key and a random nonce. So no test can tell with more than k/2^124 which of two series of sessions made the signatures, if their aggregated secret keys and messages are the same.", "quantifier": "all numbers of sessions and all tests, without any bound on their work; all reachable contexts with known secret keys, all messages, adaptor secrets and nonces of the others", "why_tests_cant": "Whether many signatures together give away what one does not is a question about joint distributions.", "anchors": ["README.md:5", "src/signing.rs:21-132", "src/sig_agg.rs:17-84", "src/signature.rs:185-205"]}
{"id": "C132", "title": "Nobody who orders signatures can tell whether groups or single private keys make them", "statement": "Let the hash answers for nonce coefficients be drawn at random, all others being given. Somebody asks adaptively for at most q of them, any number of other hashes, and at most k signatures; for each signature they choose, at that time, a group with all its secret keys, tweaks, a message, an adaptor secret (or an adaptor point, if they want an adaptor signature that is not completed) and the nonces of all members but one, whose nonces are random scalars as those of SecNonce::random. The probability of a yes in the end differs by at most k(q+k+5)/2^255 between sessions of the groups (adaptor::sign_partial by all, aggregation, adapt if the secret is given) and one signer for each session who has the aggregated secret key and makes the BIP340 signature, or the adaptor signature, with a random nonce.", "quantifier": "all adaptive programs with any numbers of questions and signatures, all hash functions for the strings that are not drawn", "why_tests_cant": "Messages chosen after seeing earlier signatures and hashes are an adversary's move; tests fix them.", "anchors": ["README.md:5", "src/signing.rs:21-132", "src/sig_agg.rs:17-84", "src/signature.rs:185-205", "src/nonces.rs:431-434"]}
{"id": "C133", "title": "A group, seen from outside by its key and its signatures, looks like a single signer", "statement": "Let the hash answers to key lists, key aggregation coefficients, taproot tweaks and nonce coefficients be drawn at random, all others being given. Somebody adaptively asks for at most q of them and chooses at most N other members of a group, with their secret keys, the place of one more member whose secret key is drawn, and a merkle root or none. They are shown a key, and then ask adaptively for at most q' more hashes and at most k signatures, with messages, adaptor secrets (or adaptor points, for adaptor signatures that are not completed) and nonces of the other members of their choice, the nonces of the one member being random scalars as those of SecNonce::random. The probability of a yes in the end differs by at most k(q+q'+k+N+7)/2^255 + 6(q+q')/2^256 + 1/2^125 between the group (KeyAggContext::new; adaptor::sign_partial by all, aggregation, adapt if the secret is given) and a single signer with a random secret key and random nonces. With with_taproot_tweak or with_unspendable_taproot_tweak it is at most k(q+q'+k+N+8)/2^255 + 10(q+q')/2^256 + 1/2^124, and twice that between two groups, or outputs with different merkle roots, of their choice.", "quantifier": "all adaptive programs with any numbers of questions and signatures, all lists of other members up to the limit of the code, all merkle roots, all hash functions for the strings that are not drawn", "why_tests_cant": "Indistinguishability compares probability distributions under every program; unit tests look at single keys and signatures.", "anchors": ["README.md:5", "src/key_agg.rs:93-143", "src/key_agg.rs:267-331", "src/key_agg.rs:492-518", "src/signing.rs:21-132", "src/sig_agg.rs:17-84", "src/signature.rs:185-205"]}
{"id": "C134", "title": "Secret nonces of the library cannot be told from random ones, whatever they are used for", "statement": "Let the hash answers to seeds (MuSig/aux) and to the inputs of nonces (MuSig/nonce) be drawn at random, and, if wanted, those of any other strings. Somebody asks adaptively for at most q hashes that are drawn and at most k secret nonces, with any secret key, public key, aggregated key, message and extra inputs, uses the secret nonces in whatever way, and says yes or no. The probability of a yes differs by at most k(2(q+3k)/2^256 + 1/2^126) between nonces made by SecNonceBuilder::build from independent uniform seeds and nonces that consist of two independent uniform scalars, as those of SecNonce::random.", "quantifier": "all adaptive programs with any numbers of questions and nonces, all inputs of nonces, all hash functions for the strings that are not drawn", "why_tests_cant": "That many nonces of one key are jointly as good as random ones, for somebody who can compute hashes, is a statement about probabilities.", "anchors": ["src/nonces.rs:41-118", "src/nonces.rs:333-405", "src/nonces.rs:431-434"]}
{"id": "C135", "title": "A group whose honest member makes nonces with the library looks like a single signer", "statement": "As C132 and C133, but the nonces of the one member are made by SecNonceBuilder::build from random seeds, with inputs chosen by whoever orders the signatures, which may also depend on the secret key of that member; the hash answers that make nonces are drawn at random, too. With all keys known the difference to single signers with the aggregated secret keys and random nonces is at most k(q+3k+3)/2^254 + k/2^126. With one unknown key, seen from outside by the aggregated key and the signatures, the difference to a single signer with a random key and random nonces is at most k(q+q'+3k+N+5)/2^254 + k/2^126 + 6(q+q')/2^256 + 1/2^125, and with a taproot tweak at most k(q+q'+3k+N+6)/2^254 + k/2^126 + 10(q+q')/2^256 + 1/2^124.", "quantifier": "all adaptive programs with any numbers of questions and signatures, all inputs of nonces, all lists of other members up to the limit of the code, all merkle roots, all hash functions for the strings that are not drawn", "why_tests_cant": "Indistinguishability compares probability distributions under every program; unit tests look at single keys and signatures.", "anchors": ["README.md:5", "src/nonces.rs:333-405", "src/key_agg.rs:93-143", "src/key_agg.rs:267-331", "src/key_agg.rs:492-518", "src/signing.rs:21-132", "src/sig_agg.rs:17-84", "src/signature.rs:185-205"]}
{"id": "C136", "title": "Signatures and adaptor signatures of sign_solo cannot be told from those with random nonces, nor from those of a group", "statement": "Let the hash answers that sign_solo makes nonces from (BIP0340/aux, BIP0340/nonce) be drawn at random, and, if wanted, those of any other strings. Somebody adaptively asks for at most q hashes that are drawn and at most k signatures or adaptor signatures of single signers, with secret keys, messages and adaptor points of their choice. The probability of a yes in the end differs by at most k(q+2k)/2^255 + k/2^127 between sign_solo and adaptor::sign_solo with independent uniform seeds and BIP340 signatures and adaptor signatures with uniform nonces. So the group of C135, whose one member uses SecNonceBuilder::build with random seeds, looks like a single signer with a random key who uses sign_solo and adaptor::sign_solo with random seeds: the difference is at most k(q+q'+3k+N+5)/2^253 + k/2^125 + 6(q+q')/2^256 + 1/2^125, and with a taproot tweak at most k(q+q'+3k+N+6)/2^253 + k/2^125 + 10(q+q')/2^256 + 1/2^124.", "quantifier": "all adaptive programs with any numbers of questions and signatures, all secret keys and messages, all lists of other members up to the limit of the code, all merkle roots, all hash functions for the strings that are not drawn", "why_tests_cant": "Indistinguishability compares probability distributions under every program; unit tests look at single signatures.", "anchors": ["README.md:5", "src/bip340.rs:31-104", "src/nonces.rs:333-405", "src/key_agg.rs:93-143", "src/key_agg.rs:267-331", "src/signing.rs:21-132", "src/sig_agg.rs:17-84"]}
{"id": "C137", "title": "Small batches of adaptor signatures for adaptor points fixed beforehand are sound; large ones are not", "statement": "Let challenges, batch seeds and the scalars that the generator makes from seeds be drawn at random. Somebody adaptively asks for at most q of them and submits at most L signatures, plain ones or adaptor signatures whose adaptor points belong to a list of t points fixed beforehand. With N = q+L+2, the chance that verify_batch accepts although one of the signatures is invalid is at most ((L+1)N(N-1) + 2N(2t+1)^L)/2^256. The growth with L is real: for every adaptor point and every n (up to 2^254) somebody with three questions submits n+1 signatures, adaptor signatures all being for that one point, such that verify_batch accepts an invalid one except with a chance of 2^257/2^n.", "quantifier": "all adaptive programs with any number of questions, all lists of adaptor points, all sizes of batches", "why_tests_cant": "Soundness of randomised verification, and how it degrades with the size of a batch, are statements about probabilities under every program.", "anchors": ["src/bip340.rs:189-310"]}
{"id": "C138", "title": "Nonces are ordered as their encodings", "statement": "The orders of PubNonce and AggNonce (Ord, as used by sort and by ordered maps) are the lexicographic orders of their 66-byte BIP327 encodings, with the point at infinity coming first, and two nonces compare equal only if they are the same. Sorting public nonces gives the same list for every order they come in, and the same aggregated nonce.", "quantifier": "all pairs of nonces, all lists of public nonces", "why_tests_cant": "An order is a statement about all pairs of values; the tests of the crate never compare nonces.", "anchors": ["src/nonces.rs:513-519", "src/nonces.rs:543-549", "src/nonces.rs:585-599"]}
{"id": "C139", "title": "Honest sessions end with a valid signature, but for a negligible chance", "statement": "Take any hash function, any group that can be built, all members running the rounds with any seeds and any spices (within the length limits). Draw two answers of the hash function at random: the one for the second nonce of some member, and the one for the nonce coefficient of the session. Except with a chance of at most 2^-253, every member's rounds end with the same valid signature for every order in which nonces and partial signatures arrive; in adaptor sessions (for any adaptor secret) with the same valid adaptor signature, which the adaptor secret turns into a valid signature that reveals it.", "quantifier": "all hash functions, key lists, tweaks, seeds, spices, members, adaptor secrets, messages and delivery schedules", "why_tests_cant": "The failure case needs nonces that cancel; that it is negligible is a statement about probabilities.", "anchors": ["src/rounds.rs:98-128", "src/rounds.rs:178-262", "src/rounds.rs:379-470", "src/nonces.rs:333-405", "src/nonces.rs:606-643", "src/sig_agg.rs:17-84"]}
{"id": "C140", "title": "From keys to signatures, taproot groups of honest signers work, but for a negligible chance", "statement": "Take any hash function, any non-empty list of secret keys (repeated ones included), merkle root, seeds and spices within the length limits. Draw four answers of the hash function at random: for the coefficient of the first key, the taproot tweak, the second nonce of some member, and the nonce coefficient of the session. Except with a chance of at most 2^-126, KeyAggContext::new and with_taproot_tweak succeed, and the rounds of all members end with the same valid signature under the tweaked key for every order of the messages; the same holds for adaptor sessions with any adaptor secret.", "quantifier": "all hash functions, lists of secret keys, merkle roots, seeds, spices, members, adaptor secrets, messages and delivery schedules", "why_tests_cant": "Every step has rare failures; that together they are negligible is a statement about probabilities.", "anchors": ["src/key_agg.rs:93-143", "src/key_agg.rs:267-305", "src/rounds.rs:98-128", "src/rounds.rs:178-262", "src/rounds.rs:379-470", "src/nonces.rs:333-405", "src/nonces.rs:606-643"]}
{"id": "C141", "title": "A rejected partial signature places blame on its signer", "statement": "Two members of a group run the rounds as documented, with their own keys and the same message (and adaptor point), and know each other's right nonces. If SecondRound::receive_signature of the one rejects a partial signature that is attributed to the other, then the other did not make it. (True if both hold the same aggregated nonce; false in general: a third member who tells the two different nonces makes the honest signature of the one look invalid to the other, for all but a chance of 2^-255.)", "quantifier": "all hash functions, groups, tweaks, members, nonces, adaptor points, messages, calls in between", "why_tests_cant": "The claim is about every combination of nonces that others send; the tests deliver the same nonces to everybody.", "anchors": ["README.md:20", "src/rounds.rs:98-128", "src/rounds.rs:178-262", "src/rounds.rs:379-407", "src/signing.rs:150-270"]}
{"id": "C142", "title": "If all are told the same nonces, failing sessions name exactly the members at fault", "statement": "In a group some members run the rounds, with any seeds and spices, while the others do anything, except that the nonces they announce (possibly after seeing the others) reach all honest members alike. Then for every order of deliveries and whatever else is delivered: every honest member finalizes the first round; receive_signature accepts exactly the one valid signature of each honest member, and rejects a signature of any member only if verify_partial_adaptor does, naming that member and changing nothing; holdouts are exactly the members of whom no valid signature was delivered, the same ones for all honest members who got the same deliveries, and never an honest one whose signature was delivered; and without holdouts, all honest members finalize to the same valid adaptor signature if the session nonce is not infinite.", "quantifier": "all hash functions, groups, tweaks, sets of honest members, behaviours of the others, adaptor points, messages and delivery schedules", "why_tests_cant": "The misbehaving members may send anything in any order; tests try single wrong values.", "anchors": ["README.md:20", "src/rounds.rs:98-128", "src/rounds.rs:131-262", "src/rounds.rs:351-470", "src/signing.rs:147-189"]}
{"id": "C143", "title": "Forging stays as hard when the forger has a say in the nonces", "statement": "A forger, given the public key of a signer, opens any number of concurrent sessions with them, in groups and about messages of its choice, and chooses everything that goes into SecNonceBuilder but the seed, even as a function of the secret key; SecNonceBuilder::build makes the nonces from random seeds, and the forger may ask for all hashes, those of the nonces included. Its chance of a valid signature whose message, x-only key and x-only nonce are not all those of one session is at most that of an explicit solver of one-more discrete logarithms, plus a negligible term. The game is one against the code: with the hash function that was drawn, it ends in acceptance if and only if it does when KeyAggContext, SecNonceBuilder, sign_partial and verify_single themselves are called.", "quantifier": "all hash functions that agree with the tags, forgers, numbers of sessions, groups, tweaks, messages, adaptor points, builders, seeds and hash answers", "why_tests_cant": "A statement about every forger and about chances over all seeds and hash answers; tests run single sessions.", "anchors": ["src/nonces.rs:220-405", "src/signing.rs:49-105", "src/key_agg.rs:93-143", "src/bip340.rs:153-200"]}
{"id": "C144", "title": "Taking part in groups does not help to forge signatures of the member's own key", "statement": "Someone uses one key both in groups and alone, directly or with a known offset P + t*G (taproot outputs, unhardened child keys). A forger that is given the public key opens any number of concurrent sessions with them, with groups, tweaks, adaptor points and messages of its choice, and then submits a signature for P + t*G, with t of its choice. Its chance that verify_single accepts the signature, though no session has its message, x-only key and x-only nonce, is at most that of an explicit solver of one-more discrete logarithms, plus a negligible term. The exception is needed: anybody with a key of their own can make a group with the member, and a tweak, whose aggregated key is the key of the member alone, so partial signatures for this group complete to signatures that verify_single accepts for the member's own key.", "quantifier": "all hash functions that agree with the tags, forgers, numbers of sessions, groups, tweaks, messages, adaptor points, offsets and hash answers", "why_tests_cant": "A statement about every forger and about chances over all hash answers; tests run single sessions with single keys.", "anchors": ["src/key_agg.rs:93-143", "src/key_agg.rs:200-260", "src/signing.rs:49-105", "src/bip340.rs:153-200"]}
{"id": "C145", "title": "A signature encrypted several times can be decrypted only with all secrets", "statement": "LiftedSignature::encrypt and AdaptorSignature::encrypt lock a signature behind any list of secrets. Whoever has all secrets but one, the point of the missing one and even the signing key decrypts the signature with at most twice the chance with which an explicit program, running the same attacker once, finds the discrete logarithm of a random point. Whenever the signature is decrypted, its scalar reveals the missing secret. With all secrets adapt gives back the signature, for every nonce.", "quantifier": "all hash functions that agree with the tags, attackers, signing keys, messages, lists of secrets and places of the missing one", "why_tests_cant": "A statement about every attacker and about chances over all nonces and secrets; the test decrypts with both secrets.", "anchors": ["doc/adaptor_signatures.md:223-246", "src/signature.rs:102-106", "src/signature.rs:175-236"]}
{"id": "C146", "title": "A partial signature can be used only to complete its own session", "statement": "A member of a group has sent a partial signature s, in a plain or an adaptor session. Every signature with the message, the x-only key and the x-only nonce of the session that verify_single accepts is, less s, the discrete logarithm of what the session still needed. This is the sum of the points against which verify_partial checks the partial signatures of the other members, plus the part of the tweaks and the adaptor point with the sign of the final nonce. So a member who has valid partial signatures of all others and sees the final signature computes the adaptor secret. Conversely, a forger who takes part in any number of concurrent sessions, in groups of its choice, comes up with a valid signature that completes none of them in this sense with at most the chance of an explicit solver of one-more discrete logarithms, plus a negligible term.", "quantifier": "all hash functions that agree with the tags, groups, tweaks, members, nonces, adaptor points, messages, signatures, forgers and hash answers", "why_tests_cant": "A statement about every signature that could be accepted and every forger; tests complete sessions in the intended way.", "anchors": ["src/signing.rs:49-105", "src/signing.rs:147-270", "src/sig_agg.rs:27-110", "src/signature.rs:175-236", "src/bip340.rs:153-200"]}
{"id": "C147", "title": "Forging stays as hard against users of FirstRound and SecondRound", "statement": "A signer uses FirstRound::new with random seeds, receive_nonce, finalize_adaptor (or finalize) and SecondRound::our_signature, or sign_for_aggregator, in any number of sessions at once. A forger that is given the public key chooses the groups and their tweaks, the index of the signer, the spices (even as a function of the secret key), the adaptor points, the messages, and all nonces that are delivered, in any order and between any other moves, and it learns the results of receive_nonce. Each first round gives at most one partial signature, because finalizing takes the round by value. A first round that was lost in a crash, or used up by a failing finalize, may be made again with the same seed and arguments, any number of times and whenever the forger likes, as long as the session has not signed. The chance of a signature that verify_single accepts, whose message, x-only key and x-only nonce are not all those of one session, is at most that of an explicit solver of one-more discrete logarithms, plus a negligible term.", "quantifier": "all hash functions that agree with the tags, forgers, numbers of sessions, groups, tweaks, indexes, spices, delivery schedules, crash points, messages, adaptor points, seeds and hash answers", "why_tests_cant": "A statement about every forger and about chances over all seeds and hash answers; tests run honest sessions.", "anchors": ["src/rounds.rs:66-82", "src/rounds.rs:98-151", "src/rounds.rs:178-333", "src/rounds.rs:356-365", "src/bip340.rs:153-200"]}
{"id": "C148", "title": "A session that has signed must not be started again from its seed", "statement": "A first round is made with FirstRound::new, signs (for the other members or for an aggregator), is lost, and is made again with the same seed and arguments. If it signs the same message with the same nonces but another adaptor point, the secret key is computed from the two partial signatures by a stated formula, for all but two of the 2^256 values of the hash that is the new challenge. If it signs three times, for any nonces, messages and adaptor points such that the first two nonce coefficients differ and the third challenge is new, the same holds for three partial signatures. Sessions that differ in the aggregated nonce or the message have different coefficients, for all but two of the 2^256 values of the hash of the second coefficient. Starting again is harmless if the aggregated nonce, the adaptor point and the message are the same: the partial signature is the one given before, in either protocol flow and for every order of delivery. (With C147, which allows starting again before signing, this says exactly how long a seed may be kept.)", "quantifier": "all hash functions that agree with the tags, reachable contexts, seeds, indexes, spices, secret keys whose coefficient is not zero, deliveries, nonces, messages, adaptor points and answers of the hash", "why_tests_cant": "About all crash points and all answers of the hash; a test shows the formula for one triple of signatures.", "anchors": ["src/rounds.rs:67-76", "src/rounds.rs:98-151", "src/rounds.rs:178-333", "src/nonces.rs:908-993", "doc/API.md:657-740"]}
{"id": "C149", "title": "Sessions work over a network that garbles messages", "statement": "Members of a group send the encodings of their nonces and partial signatures, and deliver to FirstRound and SecondRound whatever from_bytes decodes. Messages may be lost, altered, repeated and reordered, any number of other messages may arrive, and other members may misbehave, as long as the honest members are told the same nonces. Then each honest member has exactly one string of 32 bytes that counts as its partial signature: it is accepted whenever it arrives, every other string for this member is not decoded or is rejected as InvalidSignature without a change, and the member is a holdout exactly as long as that string has not arrived. All honest members that have no holdouts finalize to one and the same string of 65 bytes, a valid adaptor signature, unless the session nonce is infinity.", "quantifier": "all hash functions, groups with any set of honest members, seeds, spices, adaptor points, messages, sequences of byte strings delivered in either round", "why_tests_cant": "About all sequences of arbitrary byte strings and any number of misbehaving members.", "anchors": ["src/rounds.rs:145-260", "src/rounds.rs:361-459", "src/nonces.rs:680-703", "src/signature.rs:298-325", "src/signing.rs:16"]}
{"id": "C150", "title": "A single aggregator can name the members at fault", "statement": "An aggregator collects the public nonces of all members, sends AggNonce::sum of them, and collects partial signatures. Every honest member answers sign_for_aggregator(_adaptor) with the one partial signature that verify_partial(_adaptor) accepts for it, whatever it received itself. If all partial signatures are accepted, aggregation succeeds. Whatever partial signatures are aggregated, the result is that same signature, or BadSignature, and in the latter case verify_partial rejects at least one of them; a rejected one is never what an honest member answered. The session nonce is assumed finite.", "quantifier": "all hash functions, groups with any set of honest members, seeds, spices, adaptor points, messages, nonces of the other members, lists of partial signatures", "why_tests_cant": "About all answers of any number of misbehaving members.", "anchors": ["src/rounds.rs:262-330", "src/sig_agg.rs:17-84", "src/signing.rs:133-260"]}
{"id": "C151", "title": "Using the rounds in groups does not help to forge signatures of the member's own key", "statement": "Somebody takes part with FirstRound and SecondRound, or FirstRound with an aggregator, in any number of sessions at once, in groups that the forger makes up, with spices, deliveries, messages and restarts before signing of its choice. The forger then submits a signature for this member's own key, or for the key with an offset (such as a taproot tweak), whose message, x-only key and x-only nonce are not all those of one session. The chance that verify_single accepts it is at most that of solving one-more discrete logarithms (2k+1 points, 2k answers, for k sessions), plus a negligible term. Hashes are drawn, and the forger says how it computed keys and nonces.", "quantifier": "all forgers, however they use any number of sessions, deliveries, restarts and hash queries; chance over the secret key, seeds and hashes", "why_tests_cant": "About every forger and every interleaving of sessions, and about chances of 2^-100.", "anchors": ["src/rounds.rs:1-330", "src/signing.rs:1-132", "src/key_agg.rs:85-700", "src/nonces.rs:60-330", "src/bip340.rs:60-330"]}
{"id": "C152", "title": "Sessions survive crashes", "statement": "The program of a member keeps only the inputs of FirstRound::new and what is to be signed; it may crash at any point, before, during and after signing, any number of times, and be started again from the seed. If the nonces of the others that arrive are the same ones each time, and aggregators send their sum, then all partial signatures that it ever sends, to the others or to aggregators, are one and the same, the only valid one; once all nonces and then valid partial signatures of all others arrive after the last crash, in any order and among any other messages, the session is complete, and it finalizes to the one signature that all honest members get (if the session nonce is finite).", "quantifier": "all hash functions, groups, seeds, spices, adaptor points and messages, all histories of crashes, deliveries and calls, all behaviour of the other members apart from sending different nonces", "why_tests_cant": "About every crash point and every history.", "anchors": ["src/rounds.rs:98-333", "src/rounds.rs:341-460"]}
{"id": "C153", "title": "Whatever has happened, a session of honest members can still be completed", "statement": "All members of a group run FirstRound and SecondRound and may crash at any point and start again from their seeds. The network delivers what was sent in any order, any number of times or never, also to later lives of a program, and delivers partial signatures that it made up. Whatever has happened: no member has sent two different partial signatures, nor an invalid one; all members who complete the session get the same valid signature (if the session nonce is finite); and there is a continuation in which all members complete it.", "quantifier": "all hash functions, groups, seeds, spices, adaptor points, messages and all sequences of starts, deliveries, injected messages and calls at any of the members", "why_tests_cant": "About all interleavings of any number of members with all crash points.", "anchors": ["src/rounds.rs:98-249", "src/rounds.rs:341-460"]}
{"id": "C154", "title": "Fair runs of honest members complete the session", "statement": "All members of a group run FirstRound and SecondRound as in C153. In every infinite run in which each program crashes only finitely often, is told to finalize the first round only with all nonces but not made to wait forever, and every message that was sent is delivered again and again, there is a time after which all members have completed the session with the same valid signature (if the session nonce is finite), whatever the order of deliveries and whatever partial signatures are made up. Every finite run can be continued to such a run.", "quantifier": "all hash functions, groups, seeds, spices, adaptor points, messages and all infinite fair schedules", "why_tests_cant": "A liveness statement about infinite runs.", "anchors": ["src/rounds.rs:98-249", "src/rounds.rs:341-460"]}
{"id": "C155", "title": "Fair runs complete the session or name those who do not sign", "statement": "Some members of a group run FirstRound and SecondRound as in C153; the others do anything, but what they say about nonces reaches all alike. In every fair infinite run (as in C154, for the honest members) there is a time after which all honest members are in the second round, and each one's holdouts are members who are not honest and of whom no valid partial signature has arrived since that time. Whoever has no holdouts finalizes to the same valid signature (if the session nonce is finite). So after every finite run there is a continuation after which honest members wait at most for members who are not honest.", "quantifier": "all hash functions, groups, sets of honest members, nonces of the others, seeds, spices, adaptor points, messages and all infinite fair schedules", "why_tests_cant": "A liveness statement about infinite runs with malicious members.", "anchors": ["src/rounds.rs:98-249", "src/rounds.rs:341-460"]}
