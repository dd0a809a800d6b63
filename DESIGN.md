# Design of the formal model of conduition/musig2

This file says what is modelled, how, and how each property of
`properties.jsonl` is proved.  The per-property status lives in
`MANIFEST.json`.

## 1. Shape of the development (`lean/Verif`)

| layer | module(s) | content |
|---|---|---|
| curve | `Curve/*` | the field of `p` elements and the secp256k1 curve as Mathlib's `WeierstrassCurve.Affine`; proofs that `p` and `n` are prime and that the group of points is cyclic of order `n`; nothing is assumed about the curve |
| bytes | `Bytes` | byte strings are `List UInt8`; big-endian integers |
| hash | `Sha256` | an executable SHA-256.  All protocol functions take the hash `H` as a parameter, so theorems hold for every hash function; `sha256` is one instance |
| `secp` crate | `Secp` | the external API (`Scalar`, `MaybeScalar`, `Point`, `MaybePoint`, parsing and serializing) used by the code |
| code | `Model/*` | one module per Rust source file, function by function, every definition citing file and lines |
| specification | `Spec/*` | BIP340, BIP327 (`reference.py`), BIP341, RFC6979 written from the standards, independent of `Model/*` |
| statement vocabulary | `Spec/Claims` | definitions that occur in property statements, one section per file of `Props` |
| helper lemmas | `Lemmas/*`, `Lemmas/Props/*` | the latter also hold the data of the examples |
| properties | `Props/*` | the theorems named in `MANIFEST.json`, each with a concrete satisfying case beside it |
| tests | `Test/*` | the repository's test vectors run on the model (tests, not proofs; they are evidence that the model is faithful) |

Conventions:

* `Result<T,E>` and panics are data: `Res E T = ok | err | panic`.  `unwrap`,
  `expect`, `assert!` and slice indexing produce `panic` in the model where the
  Rust code would panic, so "never panics" is a theorem and not a convention.
* `&mut self` methods return the new state.
* Integers: `usize` is an unbounded `Nat` except where a length is narrowed
  (`as u32`, `as u64`), which is modelled by truncation.  This is right for a 64-bit
  `usize`.  `Model/Width` models the two functions that can overflow a 32-bit
  `usize` for every width, with and without overflow checks.
* `HashMap<Point, usize>` is an association list with last-insert-wins lookup.
* `impl Into<..>` conversions are the identity; generics are instantiated at
  the `secp` crate types.
* `subtle`/constant-time operations are modelled by their value.
* The RNG of `verify_batch` is an arbitrary function from the 32-byte seed to a
  stream of nonzero scalars.  The generator of a caller is a state machine that yields scalars and blocks of bytes
  (`Model/Constructors`).

## 2. Trusted base

* The Lean 4.33 kernel, and the three standard axioms `propext`,
  `Classical.choice`, `Quot.sound`.  No other axiom, no `sorry`, no
  `native_decide`, no `bv_decide`.
* Mathlib's definitions of `ZMod`, `WeierstrassCurve.Affine.Point` and its
  addition as the meaning of "secp256k1".
* The reading of the Rust source: the model is written by hand.
* The behaviour of the external crates, whose source is not available here:
  - `secp`: scalars are integers mod `n`, points are curve points; `Scalar`
    parsing rejects 0 and values >= n, `MaybeScalar` parsing rejects values
    >= n; 33-byte points have prefix 02/03 and x < p on the curve;
    `MaybePoint` also parses/serializes 33 zero bytes as infinity; infinity has
    even parity and an all-zero x-only serialization; `lift_x` gives the even
    point; sums of empty collections are zero / infinity; points are ordered by
    their encodings, infinity first.
  - `sha2`, `hmac`: SHA-256 and HMAC as standardised; an incremental hasher
    hashes the concatenation of its updates.
  - `base16ct`: hex coding; `mixed::decode` rejects odd lengths, non-hex
    characters and outputs larger than the buffer.
  - `serdect`: hex strings in human-readable formats, lower case when writing,
    either case when reading; byte strings in binary formats, except that arrays may be written
    as tuples.
  - `k256`, `secp256k1` signature types: containers of a point and a scalar, and of
    64 bytes.
  - `rand`: deterministic function of the seed, producing nonzero scalars; `Scalar::random` stops.

Not modelled: constant
time, zeroization, memory, `Debug` texts, the conversion traits that only call `from_bytes` and
`to_bytes`, allocation
failure.  Computational security is proved as reductions: C108, C109, C126 for forgers who only see keys, C111 for those
who also receive signatures of one signer, C123 for adaptor signatures, C124 also with seeds chosen by the forger, C125 for deterministic signing, C112 and C113 for those who take part in a single session, C116 for those
who take part in any number at once, in groups given beforehand, and C119 in groups that they make up during the game; C120 and C121 say the same with the
secrets and the seeds of the nonces drawn, C143 with nonces that the library builds from inputs of the forger, C144 for signatures of the
member's own key, C146 for signatures that complete no session, C147 against users of the rounds, and C151 for the own key of
such users.
Not covered: C116, C119-C121, C143, C144, C146, C147 and C151 outside the algebraic group model.

## 3. Properties and how each is proved

"False" means: the property, as a user would state it from the documentation,
does not hold of the code.  Then the negation is proved with a witness, and
what does hold is a theorem with suffix `_partial`.

* C01-C05, C07, C13, C14 (key aggregation, `Model/KeyAgg`, `Props/KeyAgg`): one
  invariant over reachable contexts (`Lemmas/Reachable`): the cached
  coefficients are functions of the key list, and
  `pubkey = ±Σ a_i P_i + tacc·G`.  Equality with `Spec/BIP327` by unfolding and
  by induction on the list of tweaks.
* C06 (`tweak_sum`): false after an x-only tweak of an odd key.
* C08 (`aggregated_seckey` rejects keys that are not the members'): false.
* C09 (taproot tweak is BIP341's): holds except when the tweak hash is exactly
  zero, where the code returns an error; the theorem states that case.
* C10-C12 (context encoding, `Props/KeyAggBytes`): byte-level model of
  `to_bytes`/`from_bytes`.  C12 (canonical) is false: six header bits are ignored.
* C15, C17-C20 (`Model/Nonces`, `Props/Nonces`): the hashed input as an explicit
  byte string; a parsing argument for injectivity.
* C16 (same nonce as BIP327 `NonceGen`): false when optional inputs are absent;
  `C16_builder_exact` gives both byte strings and says when they agree.
* C21-C23: sums in a commutative group; codec lemmas.
* C24-C32 (`Model/Signing`, `Model/SigAgg`, `Props/Signing`): module algebra over
  `ZMod n` with case splits on parities.  C29 is false when `R1 + b·R2` is infinity.
* C33-C44 (`Model/Bip340`, `Model/Signature`, `Props/Bip340`): comparison with
  `Spec/BIP340`; algebra.  C39 is false for an infinite nonce, C42 for odd adapted
  nonces.
* C45, C46 (`Model/Hex`, `Props/Encoding`): C46 is false for 97-byte secret nonces.
* C47-C50 (`Props/Batch`): the batch equation as a linear combination of the rows'
  defects.  C50 is false for adaptor rows; `C50_batch_exact` is the exact condition
  for acceptance.  C122 is the soundness that C50 claims, for plain batches; C137
  is what remains of it for adaptor rows.
* C51, C52 (`Model/Deterministic`): the retry loop is a partial fixed point.  C52 is
  false for digests >= n.
* C53-C63, C70 (`Model/Rounds`, `Lemmas/Rounds`, `Lemmas/History`,
  `Props/Rounds`, `Props/Sessions`): histories are lists of calls of any length;
  invariants by induction; an honest session (`Spec/HonestSession`) is a group
  of state machines, each with its own delivery order with repetitions.  C59 and C62
  are false.
* C64 (nonce reuse, `Props/NonceReuse`), C74 (`Props/Solo`): linear algebra mod n.
* C65: computation in the kernel over the complete table of tags.  C66, C67: byte
  strings of known prefix lengths.
* C68, C69: `Curve/*`, `Secp`.
* C71 (`Props/Solo`): false.  Both deterministic signatures are unfolded to one nonce
  and the key is computed from the two verification equations.
* C72, C73 (`Props/Solo`): the verification equation is affine in `s` with
  invertible slope.
* C83, C84, and the exact forms of C06 and C08 (`Props/Exact`): C83 from the
  verification equation; C84 by an injection built from C49.
* C85, C114 (`Model/Serde`, `Props/Serde`): human-readable and binary formats.  How `serdect` hands an
  array to a binary format is a parameter of C114.
* C86 (`Model/Conversions`, `Props/Conversions`): the types of the other crates are
  modelled by their contents (64 bytes; a pair of point and scalar).
* C87-C89 (`Props/Forking`): C87 from the partial verification equation.  C88 is the
  extraction step of the forking argument: hash functions before and after
  rewinding are different parameters `H`; probabilities are in C105-C109 and C111.  C89 by
  summing the partial verification equations.
* C90-C92 (`Props/Unlock`): from the adaptor verification equation for two different
  nonces, and (C91) from the sum of the partial verification equations.  The hash
  relations that remain as exceptions are kept in the statements, and an example
  with a degenerate hash shows that they cannot be dropped.
* C93 (`Props/Binding`): the tweaked key is `±Q + tG`, and `t` is read back from the
  32 bytes of the tweak hash, which `with_taproot_tweak` parses without reduction.
  The same file holds `C75_forged_session`: C75 for a whole session, with nonces that
  really do aggregate to the nonce the forged scalars were made for.
* C12, C29, C39, C42, C59 are false as stated; `Props/Sharp` says for exactly which
  inputs they hold (likewise `C06_tweak_sum_exact`, `C08_accepted_iff`,
  `C16_builder_exact`, `C46_from_hex_exact`, `C52_rfc6979_exact`, `C71_nonce_shared_iff`
  in their own files).  `C59_wrong_key_outcome` combines C87 and C91: a session signed
  with another member's key fails later.
* C94-C96 (`Props/Aggregator`): C94 by summing the partial verification equations for
  a nonce that need not be the sum of the signers' nonces; C95 from C78 and C38; C96
  collects the outcomes of each function.
* C97, C98 (`Props/Width`): `Model/Width` repeats `KeyAggContext::from_bytes` and the
  extra input check with `usize` arithmetic of a given width, wrapping or checked.
  The product `n_pubkey * 33` fits into 38 bits; 33 is invertible modulo 2^32, so
  every length below 2^32 is the wrapped product of some count.
* C99, C100 (`Props/Rogue`): adversaries are represented by the coefficients with which
  they make keys and nonces from `G` and a victim's key (algebraic adversaries).  The
  verification equation is linear in the victim's secret key; the theorems solve it.
* C101 (`Props/Calls`): `Spec/Calls` represents ownership (`self` by value, no `Clone`) by a
  state that is a first round, a second round or nothing; induction over the calls.
* C102, and the layout in C10 (`Props/Decode`): the decoders are followed case by case, with
  the points and scalars decoded by the functions of BIP327 (`Spec.cpoint`,
  `Spec.cpoint_ext`, `Spec.lift_x`) instead of the model's parsers.
* C103 (`Props/Agreement`): the network is an arbitrary list of calls.  Agreement holds because
  an adaptor signature is determined by its nonce (C73); diverging views by C27 and C58.
* C104 (`Model/Display`, `Props/Display`): a number in a text ends where the next word
  starts, and its digits can be read back.  `C104_text_numbers` says where the numbers stand,
  so that exchanging two of them is noticed.
* C105-C107 (`Spec/Uniform`, `Props/Uniform`): the hash function is fixed but for one byte
  string, whose answer ranges over all 32-byte strings; the theorems count answers.  A
  verification equation, or a sum of keys, is injective in the reduced answer, and at most two
  strings have the same reduction.  This is the random-oracle step for a single query.
* C108 (`Spec/Forger`, `Props/Forger`): unforgeability without signing queries, in the random
  oracle model.  A forger is a tree of questions; `Lemmas/ForkingCount` is the forking lemma
  as a count over all answer sequences (Cauchy-Schwarz), the string asked at an index depends
  only on earlier answers, and two forgeries with one nonce give the key.  Forgers that also
  take part in a session are in C113, those that see signatures in C111.
* C109 (`Spec/GroupForger`, `Props/GroupForger`): as C108, for forgers that choose the other keys
  of the group.  The forking lemma is applied twice, to the challenge and, over pairs of sequences,
  to the coefficient of one key; forgeries whose coefficient is asked after the challenge are rare
  by the count of C107.  A victim that is the second of three or more distinct keys, and tweaked keys, are
  in C126.
* C110 (`Model/Traits`, `Props/Traits`): the encodings have the lengths given in the macro calls;
  the digits by evaluating all 256 bytes.
* C111 (`Spec/Cma`, `Props/Cma`): as C108, with a signer that runs `sign_solo`.  Each call's nonce
  hash and, if its string is new, its challenge are drawn.  The pairs of a nonce and a challenge are
  two to one the transcripts of accepted signatures (`transcriptEquiv`), so the run is simulated from
  transcripts unless a challenge string was drawn before (counted per signature) or a nonce hash is 0 or
  at least `n`; the fork is made for fixed transcripts and averaged (`forked_avg`).  The idealization
  is that each call draws a new nonce hash: the forger does not ask for it and no call repeats the seed,
  key and message of another.
* C112 (`Spec/Views`, `Props/Views`): a bijection from what the signer draws (two nonces, two hash
  answers) to the draws of the simulator that succeed (two answers, the partial signature, the second
  nonce, a guess of the sign), which preserves the view.  The answers are drawn before the others
  reply and do not depend on the reply, which favours the others; the simulator needs them early, so
  several sessions open at once are not covered.
* C113 (`Spec/SessionForger`, `Props/SessionForger`): forgers that take part in one session, by
  guessing which questions will be those of the session.  For a right guess the game is played without
  the signer as in C112, by a forger in the sense of C108 (`alone_run`); the games won against the
  signer, times the answers of one challenge, inject into the games won without (`count_games`).  The
  keys of the group are given in advance, and several sessions are not covered.
* C115 (`Spec/Ros`, `Props/Ros`): false.  The known attack on the ROS problem: two challenges per session,
  from two adaptor points, and weights that are powers of two, spell any number below `2^256`
  (`sum_bits`).  The formulas of the attack are in the specification and use public data only.
* C116 (`Spec/Concurrent`, `Props/Concurrent`): the positive counterpart of C115, in the algebraic group model.
  Forger, signer and solver are trees of questions for hashes and for discrete logarithms; the solver replaces each
  partial signature by one question and in the end solves a linear system for the `2k + 1` unknowns.  The rows of the
  partial signatures and of the forgery are independent unless some hash answer lies in a small set computed from the
  earlier ones (`badSet`): answers given before, ratios of coefficients in earlier combinations (so a nonce cannot be
  combined before its coefficient is known), and the one solution of a linear equation.  `core` proves this, and
  `chance_hits` bounds the probability of hitting such sets.  The adaptor point has to be fixed when a session is
  opened: `core` uses that the challenge of a session is determined by its nonce coefficient.  There is a family of
  groups, numbered by `ℕ`; the group of a session is chosen together with the message, and is found again from the
  string that is hashed to the nonce coefficient, which is why two groups must not have the same x-only key.
  Here and in C119-C121, C143 and C144 a forgery may have the message and the key of a session if the x-only nonce is another.
* C117 (`Props/Cancel`): the weighted sum is affine in the answer for one coefficient, with a slope that is not zero
  because a key occurs fewer than `n` times.  The last part splits the answers of C116 by that coefficient.  Only groups
  made by `KeyAggContext::new` are covered there, without tweaks.
* C118 (`Model/Constructors`, `Props/Random`): `m` calls use the scalars `0, …, 2m - 1` of the sequence, and multiplication
  by `G` is a bijection from scalars to points.  So each list of public nonces comes from exactly one list of scalars.
* C119 (`Spec/Adaptive`, `Props/Adaptive`): C116 without given groups.  `makeGroup` asks for the hashes of key aggregation
  and runs the model's `new` and `with_tweaks` with a hash function that has these answers (`C119_game_is_code`: the hash
  function that is drawn in the end gives the same contexts).  With each string the forger says how the keys in it are
  combinations of `G` and the signer's key.  Two such descriptions of one x-only key are a linear equation for the secret
  key (`keyRow`); if it is trivial, then the description determines the group (`factor_eq`), unless an answer of key
  aggregation hits a set of fewer than `(t + 1)(k + 7) + 2^33` values after `t` answers (`gameBad_card`; `2^33` is from
  the possible numbers of times that a key occurs in a list).  The rest is `core` of C116.
* C120, C121 (`Spec/OneMore`, `Props/OneMore`): `oneMoreDlog` is the chance, over unknowns and hash answers, that a program
  finds all `2k + 1` unknowns; `attack` is the solver of C119, and C120 is the average of C119 over the secrets.  The
  forger is a function of the public key, here and in C143.  For C121
  the seeds and their hashes, and the answers to the `2k` strings of `NonceGen` are drawn.  The secret nonces are then the answers modulo
  `n`, which are not quite uniform (`chance_bad`: `k / 2^126`).  The forger is told the answers too if it asks for them; that
  it does not, and that no two seeds agree, holds up to `2k(k + m) / 2^256` (`chance_good`), because the strings contain
  the seed, hidden by a hash that is drawn.  `game_rehash` says that then the game goes the same way.  The settings of
  the builders are a function of the other values that are drawn, but not moves of the forger.
* C122 (`Spec/BatchForger`, `Props/BatchForger`): C49 for whoever searches for a batch.  A program asks for hashes and for
  the scalars of a seed, then `verify_batch` asks for what it needs (`check`), all with one log of draws.  A draw is bad
  (`bad`, `chance_bad`) if it is a challenge, a block of a seed string or a seed that occurs in the log already, or if it makes
  the batch belonging to the seed pass although it is invalid.  Without bad draws every challenge is drawn before the seed string that contains it, and
  a seed before its scalars, so that the batch is determined when the scalars are drawn (`sound`).  The generator is ideal here.
* C123 (`Spec/AdaptorForger`, `Props/AdaptorForger`): C111 with `sign_solo_adaptor`, adaptor points chosen by the forger.
  The transcripts depend on the adaptor point through the sign of the adapted nonce.  If the challenge of the
  forgery was drawn for the signer, nonce and challenge are those of an adaptor signature received, and
  `reveal_secret` gives the difference (`reveal_of_same`); so a forgery that is no completion has a challenge of the forger's
  own, and is forked.  As in C111 each call draws a new nonce hash; with one seed for two
  adaptor points of the same message the nonce repeats (C71).
* C124 (`Spec/SoloForger`, `Props/SoloForger`): C123 without the draws given to each call.  The forger chooses the seeds, and the
  signer hashes its nonces with the same function that answers the forger; draws are made when a string first comes up, and
  `C124_one_hash_function` says that the run is the one with a single hash function.  The string of a nonce contains the
  secret key masked by the hash of the seed, so a forger who asks for the hash of one gives away the key: `strip` runs the forger,
  looks for the key in each such string, draws the other hashes of nonces itself and repeats answers for repeated requests
  (`strip_wins`), which reduces to C123.  Averages over the draws of `strip` go through by convexity (`forked_jensen`).  Runs in
  which one nonce serves two adaptor points do not count as won; they do reveal the key (C71).  Seeds are made by the forger; those of
  `deterministic::sign_solo` depend on the key, see C125.
* C125 (`Spec/DetForger`, `Props/DetForger`): C123 with `deterministic::adaptor::sign_solo`, which takes its nonces from the hash function
  alone.  Between the message and the nonce it hashes twelve strings (`chain`): ten for five times HMAC, the seed, the nonce.
  They are drawn when they first come up, for the signer or before that as `H` for the forger (`C125_one_hash_function`).  The first one
  contains the secret key in the clear, so `strip` reads it off if the forger ever hashes it (`keyAt_chain`, `strip_wins`); each of the others
  contains the hash of the one before it (`chain_inj`), which nobody has seen, so with few exceptions (`chance_bad`) all are new and the nonces
  are independent draws (`real_ideal`).  Runs in which the RFC 6979 loop needs a second round count as won and are in the loss.  One message with two
  adaptor points does not count: the two share a nonce (C71).  Messages with one hash may be signed: they share all strings but the last, which
  contains the message (`links_cls`).
* C126 (`Spec/AnyGroup`, `Props/AnyGroup`): C109 for a victim at any place and for tweaked groups.  All coefficients come from one random table.
  The first fork is that of C108, for a given table; tweaks are undone with the accumulators of the context (`plain_of_reveals`).  The second
  changes the table and keeps the challenges: a victim with a hashed coefficient gets a new one; if the coefficient is one, all others of the
  key list are multiplied by a random scalar.  Both are changes that can be undone and composed, which is all that the forking lemma needs
  (`Lemmas/ForkAct`), and leave alone where in the run the key list first came up (`hAt_trace`).  Multiplying needs coefficients that are their own
  reduction, hence the loss (r+N)/2^127 (`chance_not_good`).  That no two key lists have one hash is not assumed: such a pair is an outcome.
  Not covered: signing queries in the same game (C112, C113, C116, C119).
* C127 (`Spec/OneSigner`, `Props/OneSigner`): the session nonce is a function of one member's nonces and of the table entry at the place
  these nonces choose.  Over a random table such values are spread almost evenly, for tests that see the whole table: places differ for different
  nonces, so the counts are uncorrelated and Cauchy-Schwarz bounds the deviation (`Lemmas/Spread`).  The bytes of the signature are a function of the
  session nonce (`session`), the same as for one signer.  The test is any predicate; it sees the hash function without the answers that became nonces, as
  somebody who knows seed and secret key can recompute the nonce.  Sessions whose nonce is zero are in the loss.
* C128 (`Spec/Asker`, `Spec/KeyCommit`, `Props/KeyCommit`): a program asks for hashes and submits two groups; then all that is hashed for
  them is asked.  The answers that must not be drawn are named beforehand (`KeyCommit.bad`): a list hash equal to one before or to one already used in
  a coefficient string, a coefficient that makes the sum of a hashed list equal to that of another up to sign, a taproot tweak that hits an earlier output.
  Each has chance at most 4/2^256 per earlier string (`chance_bad`); without them no two groups clash (`agg`, `tap`).  The documentation claims this of
  every reordering; that is false for some hash functions (`C128_order_can_be_invisible`).
* C129 (`Spec/NonceClash`, `Props/NonceClash`): as C128, with the strings of seeds and nonces drawn.  The answers that must not be drawn are those that
  reduce to an earlier nonce up to sign, or to zero (at most 6/2^256 per earlier string); then different strings have different nonces, and the strings of calls with
  different inputs are different (C18, C66).
* C130 (`Spec/KeyHiding`, `Props/KeyHiding`): the hashes are drawn while they are asked for, as in C128.  `Lemmas/Lazy` computes the chance of a yes
  question by question; strings may as well be drawn before they are asked for, so the list hash `L` and all coefficients under `L` are drawn first.  They do not
  matter unless the program asks for the string of the list (which has the unknown key in it) or for a coefficient under `L`, and since the coefficient of the
  first key makes the sum uniform, the key shown does not say which strings these are.  For taproot outputs the same argument is repeated with the tweak hash.
  What is shown is the key only (for signatures see C127).
* C131 (`Spec/ManySigs`, `Props/ManySigs`): the argument of C127 for one session after the other.  While one session is replaced, the nonces of all others are
  fixed, but their session nonces depend on the table, which the spreading lemma allows, as it does for every set that depends on the whole table.  Messages and
  the nonces of others are fixed in advance (for others see C132); in return the test sees the whole hash function.
* C132 (`Spec/Outsider`, `Props/Outsider`): C131 with messages and nonces of others chosen adaptively, for a limited number of questions, and with adaptor
  signatures for adaptor points of their choice, which single signers make as well (`Spec.adaptorWith`).  By induction on the
  program, with `Lemmas/Lazy`: the string of a session was hardly asked before, so its answer is fresh and the session nonce nearly uniform; given the session
  nonce, the second nonce of the member is still uniform, so the string is hardly asked for later and its answer may be forgotten.
* C133 (`Spec/Watcher`, `Props/Watcher`): C130 and C132 in one game, in which all of their hashes are drawn.  First the group is replaced by a signer with the
  aggregated secret key (C132, after the hashes of aggregation), then that signer, as a judge who computes the discrete logarithm of the key, by one with a
  random key (C130, whose judge is not limited in anything but hashes).
* C134 (`Spec/NonceUser`, `Props/NonceUser`): one nonce after the other is replaced.  The string of a random seed was hardly asked before, nor are the strings
  of the nonces, in which the hash of the seed masks the key; so all three answers are fresh.  Given the nonces, seed and hash of the seed are still uniform, so
  the strings are hardly asked for later.  An answer reduced modulo the order is nearly a random scalar.  Outside the model: how seeds are drawn (they are uniform here).
* C135 (`Spec/Member`, `Props/Member`): C134 for the programs of C132 and C133.
* C136 (`Spec/SoloSigners`, `Props/SoloSigners`): as C134, for `sign_solo` and `sign_solo_adaptor`: two hashes and one nonce per signature. Put together with C135 by
  the triangle inequality.
* C137 (`Spec/BatchForger`, `Props/AdaptorBatch`): C122 when adaptor signatures are for adaptor points fixed beforehand.  The seed commits to a row's
  nonce up to one of `2 |Ts| + 1` shifts (`core`, `shift`, `seed_commits`), and the union bound is over all choices.  Necessity: subset sums of the coefficients
  take every value (`Lemmas/SubsetSum`, by the second moment).  That attack counts questions, not computing time.
* C138 (`Model/Order`, `Props/Order`): the derived `Ord` compares `R1`, then `R2`; comparing two encodings of equal length one
  after the other is comparing the concatenations (`cmpBytes_append`).
* C139 (`Spec/Completes`, `Props/Completes`): C60 and C61 without their exception.  Contexts stay reachable when answers for nonces are changed
  (`SameKeys.reachable`); other members' nonces do not depend on the redrawn answer since the signer index is hashed.  `R2 = 0` for at
  most 4 first answers, and otherwise `R1 + b R2` is infinity or `-tG` for at most 2 second answers each.
* C140 (`Spec/Completes`, `Props/Completes`): C139 together with C107 for the coefficient of the first key and the taproot tweak.
* C141 (`Props/Blame`): false in full.  From C103: with the same aggregated nonce an honest signature is accepted.  The
  counterexample is a group of three in which the third member sends two different nonces; that nearly every such
  pair works is `C141_other_view_rejects`, from C106.
* C142 (`Spec/MixedSession`, `Props/MixedSession`): the positive counterpart of C141, for groups with any misbehaving members
  and a reliable broadcast of nonces; from C53, C58, C70 and the uniqueness in C73.
* C143 (`Spec/Opener`, `Props/Opener`): C120 with the nonces of the library. The forger chooses the builder of every session, as a function of
  the secret key, and the seeds and the hashes of `SecNonceBuilder::build` are drawn. The bound is that of C120 for the forgers `(A P).plain`, which
  asks for other strings instead of the hashes of nonces, plus the distance of C134. `C143_game_is_code` runs the forger against the model's
  functions with one hash function (`AcceptedByCode`) and shows that the game ends alike: the lazily drawn table at the end is that function.
  As in C119 and C120 the game asks the forger to say how its nonces and keys are combinations (algebraic group model); this part of `Wins` is
  not about code. The example is a forger without a limit of time, which computes the secret key and wins with a chance of at least 1 - 2^-120.
* C144 (`Spec/OwnKey`, `Props/OwnKey`): C119 and C120 for forgers that submit a signature of `P + t·G`, not of a group. `forGroup` turns such a
  forger into one of C119: it plays the same game, and in the end makes the group of a fresh key `κ·G` and `P`, with the plain tweak
  `t - c·κ` for the coefficient `c` of `κ·G`, whose aggregated key is `P + t·G` (the second key has the coefficient one). It fails only if
  `c·κ·G + P` is infinite. `C144_game_is_code` ties the sessions to the code, and `C144_group_with_the_key_of_one` shows with the code's
  functions that signatures of such a group are signatures of the member's own key, so the condition on message and key is needed. Solo
  signatures (`sign_solo`) with the same key are not given to the forger. The bound is also proved for nonces of `SecNonceBuilder::build`, as C121.
* C145 (`Spec/AllSecrets`, `Props/AllSecrets`): the signature is `Spec.signWith` (the single signer of C127), parsed and encrypted by the model's code.
  `missingSecret` makes an adaptor signature for `T` with a random scalar; the attacker sees what it sees in the real game, since nonces of
  even `y` are uniform in both (two secret nonces give the same one, hence the factor 2). C78 says for single signatures that completing them
  gives away the secret; this also covers that encrypting an existing signature needs it.
* C146 (`Spec/Completion`, `Props/Completion`): `Spec.whole` is `s·G` for the signature of a session, `Spec.part` the same for a partial signature, and
  `Spec.owed` their difference. `C146_completing_pays` is the equation of `verify_single` less that of `sign_partial`; `C146_what_is_owed` says what
  the difference is made of, if the members' nonces add up to the aggregated one and the final nonce is finite. The last part: a signature that
  completes no session differs from each in message, key or nonce, so it is a forgery for C119 (`forges_of_uncompleted`).
* C147 (`Spec/RoundForger`, `Props/RoundForger`): `Accepted` plays the forger against the model's `FirstRound` and `SecondRound`. That the methods
  which finalize take `self` by value is the flag `live`. `opener` is the forger of C143 that keeps account of the deliveries and asks
  for partial signatures with the sum of the nonces that the round has; `accepted_opener` shows for every hash function that both
  go the same way, so C143 applies. The forger names the aggregated key of a group when it opens a session, and has lost if this is wrong;
  it can ask for the hashes before. Results of the second round beside `our_signature` are public computations and no moves of the game.
  The move `restart` is a crash of the signer's program: the session gets back the round that `FirstRound::new` returned, unless it has signed.
* C148 (`Spec/Restart`, `Props/Restart`): `Spec.GivesPartial` says that a copy of a first round gives a partial signature, in either
  protocol flow. All of them are `sign_partial` with the nonce of the round (`givesPartial`), so the formulas of C64 apply; their denominators
  vanish for one value of the last challenge only. The nonce coefficient does not hash the adaptor point, so two signatures are enough if only
  the adaptor point changes. Two lives about the same session give the same signature.
* C149 (`Spec/Wire`, `Props/Wire`): C142 composed with the decoders. `Spec.nonceCalls` and `Spec.signatureCalls` turn the messages that arrive
  into calls; what is not decoded is dropped. Encodings are canonical (C23, C68), so the one valid partial signature of C27 is one string.
* C150 (`Props/AggregatorBlame`): C142 for the flow with a single aggregator, on the groups of `Spec/MixedSession`. Partial signatures that are
  wrong may cancel, so that the aggregation succeeds all the same: then the result is the right signature.
* C151 (`Spec/OwnRounds`, `Props/OwnRounds`): C144 against users of the rounds, obtained as C147 is from C119: `opener` turns the forger into one
  that opens sessions with nonces of `SecNonceBuilder::build`, C134 replaces these by drawn ones, and then C144 applies. The submission's list of
  keys is not used; its tweaks add up to the offset.
* C152 (`Spec/Crash`, `Props/Crash`): `life` runs the program of a member through a list of events; an error of `finalize_adaptor`, which takes the
  round by value, stops the program until the next start. By induction every state is the one after some calls to a round that C142 is
  about. Why the nonces have to be the same after a crash is C148.
* C153 (`Spec/World`, `Props/World`): the programs of C152 of all honest members, with the list of all messages ever sent. Invariant: every message
  is the nonce or the one valid partial signature of its sender, and every program is in the state after some history to which C152
  applies. In the continuation all start again, receive all nonces, sign, and receive all partial signatures.
* C154 (`Spec/Fair`, `Props/Fair`): infinite runs of the programs of C153. A program that runs keeps the nonces and partial signatures that it has
  received (`Stage`), and each one that is still missing is delivered at some time. Fair runs exist: a schedule that takes turns.
* C155 (`Props/Fair`): the same with some members who do anything; C154 is the case that there are none.
* C75-C82 (`Props/Group`): consequences for groups, by composing the above.

## 4. Where the code and its documentation disagree

| property | what happens | theorem |
|---|---|---|
| C06 | `tweak_sum` is not the sum of the tweaks after an x-only tweak of an odd key (earlier tweaks are negated) | `C06_tweak_sum_not_sum` |
| C08 | `aggregated_seckey` accepts one suitable scalar for a larger group | `C08_unaligned_accepted` |
| C09 | a zero tweak hash is an error; BIP341 allows it | stated in the C09 theorem |
| C12 | six bits of the context header byte are ignored when decoding | `C12_context_encoding_not_canonical` |
| C16 | without some optional inputs the nonces differ from BIP327 `NonceGen` | C16 negation |
| C29 | with `R1 + b·R2` infinite every partial signature verifies but aggregation fails (`G` replaces the infinite nonce in the challenge and in the final signature, which the sum of the partial signatures does not match) | `C29_guarantee_false` |
| C39 | `reveal_secret` may return `-t` if the adaptor nonce is infinity | `C39_reveal_secret_false` |
| C42 | `encrypt` of an adaptor signature fails to stack when the adapted nonce is odd | `C42_stacking_false` |
| C46 | `SecNonce::from_hex` has a 64-byte buffer and rejects the 97-byte format `from_bytes` accepts | `C46_from_hex_accepts_false` |
| C50 | the batch seed does not commit to an adaptor row's nonce; a batch with an invalid signature can be built that is always accepted | `C50_invalid_batch_accepted` |
| C52 | RFC6979 `bits2octets` reduction is missing for digests >= n | `C52_rfc6979_false` |
| C59 | `FirstRound::finalize` accepts another member's secret key | `C59_wrong_key_false` |
| C62 | `SecondRound::finalize` of an adaptor session returns an (invalid) signature without an error | `C62_invalid_signature_returned` |
| C64 | the extraction formula in doc/API.md has a wrong sign; the one of the demo test ignores the parity signs | `C64_documented_formula_false` |
| C71 | `deterministic::adaptor::sign_solo` reuses the nonce for different adaptor points and for the plain signature, which gives away the secret key | `C71_deterministic_nonces_reused_false` |
| C97 | with a 32-bit `usize`, `KeyAggContext::from_bytes` multiplies an untrusted count by 33 without an overflow check: debug builds panic, release builds accept trailing junk, and panic on a 38-byte string | `C97_decode_panics`, `C97_junk_accepted` |
| C98 | with a 32-bit `usize` in release builds the limit on extra inputs is never enforced | `C98_extra_input_limit_false` |
| C115 | `sign_partial_adaptor` does not hash the adaptor point into the nonce coefficient, and `FirstRound::finalize_adaptor` takes it after the nonces: whoever chooses the adaptor points in 256 open sessions forges a signature for any message | `C115_sign_flip_forgery`, `C115_rounds_forgery` |
| C141 | README.md:20: partial signatures "can be verified to place blame on misbehaving signers"; a member who tells two honest ones different nonces gets the one to reject the other's signature (`RoundContributionError` names the honest signer) | `C141_honest_signer_blamed`, `C141_other_view_rejects` |

Other observations made while modelling (no property of their own):

* `FirstRound::new` panics when the spices' extra inputs total more than
  `u32::MAX - 4` bytes, because the signer index is appended (`C54_*`).
* The comment of `verify_batch` on what the seed commits to is wrong for
  adaptor rows (C50).
* The serde buffer of `SecNonce` has 97 bytes, the one of its `FromStr` 64.
* In binary serde formats `Serialize` calls `serdect::array` and `Deserialize` calls
  `serdect::slice` for the fixed-length types.  Whether these agree on the wire
  depends on the version of that crate, whose source is not available here; C114 states both cases.
* `parity_acc = 1` with `tweak_acc = 0` is reachable.
* `adaptor::verify_single` is documented to return an error for an already decrypted
  signature; for the adaptor point infinity it accepts it (`C92_decrypted_rejected`).

## 5. Tests of the theorems against wrong programs

`seeded/LOG.jsonl` has one line per attempt: the model definition edited as a
realistic bug, the claim the bug breaks, the theorems that no longer prove, and
the theorems that were tightened because they still proved.

A theorem counts as failed when its proof no longer checks against the edited
model. This shows that the proof depends on the edited code. It does not by itself
show that the statement became false. For the edits generated mechanically (those given as
a line and its replacement, without a description), the claim named is the one whose
theorem failed; nobody decided it beforehand.

The one edit that survived a run and led to tighter theorems is the deterministic
signer ignoring its nonce (C51). Other gaps were found by reading the statements,
not by running an edit, and so are not marked as tightened in the log:

* `C10_layout` and the compact case of `C43_signature_layout`: a change of layout made
  in both directions at once would have passed the round-trip theorems.
* C102: no theorem fixed the reason reported when decoding fails.
* C110: no theorem fixed the case of the hex digits.
* C67 and C17 to C19: an existential that was true for trivial reasons was replaced by
  explicit bytes.
* `C50_seed_input`, `C50_seed_commits_partial`, C66 and `C75_forged_session_two` were
  strengthened in the same way.
