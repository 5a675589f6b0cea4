# Formal model of d1-lib in Lean 4 — design

## Shape of the model

Everything is total, computable Lean over `List UInt8`.

* **Effects.** Every Go method that talks to the IO Provider, the clock or the random source is a value of a
  free monad `Prog` whose operations are `put/get/update/delete`, `rand n` and `now` (`Verif/Model/Prog.lean`).
  A Go panic and a non-terminating loop are explicit outcomes. One program text therefore has several semantics:
  * `run`: sequential, against an abstract store, an environment `Env` that fixes the random bytes, the clock and
    the fault (none / error without effect / error after effect) of every step;
  * `runN n`: the same, cut after `n` effects (a crash at any point);
  * `Yields`: against an arbitrary, possibly malicious provider (every response is universally quantified);
  * `sched` (`Model/Sched.lean`): an interleaving of any number of programs, one effect at a time; programs may stop
    forever at any point;
  * `Runs` (`Model/Replay.lean`): an interleaving against any step relation, in particular against a provider that loses
    writes and answers reads with any record ever written under that key.
  * `runOn`, `schedOn` and `memSched` (`Model/Stack.lean`): the same on the states of `Mem` and `Bolt`; `memSched` interleaves the
    single operations on the `sync.Map`.
* **Slices.** Everywhere else byte slices are values. `Model/Heap.lean` models them as windows into shared arrays, for the
  functions that write into buffers; `C51_*`, `C62_*` and `C67_*` say when the two views agree.
* **Externals** are one structure `Prims` (AES block permutation, GCM seal/open, Keccak sponge, PBKDF2, JSON parser,
  time text) with a separate `Prims.Laws` proposition. No Lean axiom is used; theorems take `Laws` as hypothesis.
  `Verif/Std` defines the real algorithms (AES, GCM, Keccak, HMAC, PBKDF2, RFC 3339) from their standards and proves the laws
  for them (C78); `Std/Field.lean` and `Std/Ghash.lean` give GHASH its meaning as a polynomial over GF(2^128) (C80). `Verif/Std/Vectors.lean` replays the known-answer tests of the repository on the model in the kernel.
  `Proofs/Instance.lean` is a cheap instance for the concrete cases beside the theorems.
* **Encodings** that the repository's claims depend on are concrete: base64, hex, decimal, uvarint, JSON rendering
  with the escaping and UTF-8 replacement of json-iterator, UUID text, KMAC encodings.
* **Go specifics.** A Go string is a list of arbitrary bytes; a `[]byte` whose nil-ness is observable is `Option Bytes`;
  a `map[string]struct{}` is `Option (List …)` (nil map = none; list order = iteration order, so statements hold for every order).

* **Proof methods.** `Frame` (which effects and outcomes a program can have), `Yields` (arbitrary responses), `Run`/`D1Run`/
  `DirRun`/`IndexRun` (one-step refinements), `Rely` and `Safe` (rely/guarantee over all interleavings), `Linear` (linearizability), crash-point
  induction over `runN`. False claims get a theorem that negates them and a `_partial` theorem for the part that holds.

Layout: `Verif/Model/*` the code, function by function, with citations; `Verif/Spec/*` small specifications;
`Verif/Proofs/*` lemmas; `Verif/Props/*` the property theorems with non-vacuity examples next to them. Cases that need longer runs are in `Props/ObjectCases.lean`, `Props/TokenCases.lean` and `Props/DirCases.lean`.

## Plan per property

| id | what is modelled | how it is proved |
|----|------------------|------------------|
| C01, C02, C15–C17 | all of d1.go, utility.go, data/{object,access}.go, crypto/cryptor.go | one-step refinement `D1 call ⟶ map spec` under an abstraction relation, lifted to histories by induction; C01, C15–C17 are corollaries |
| C03–C05 | the same programs against arbitrary responses (`Yields`) | case analysis of the program tree |
| C06 | `authorizeAccess`, `GetIDs`, `GetIDScope` | decision characterised; permutation invariance |
| C07–C12, C19 | the same programs under faults, crashes, interleavings | footprint lemma; crash-point induction; for claims that are false of the code a concrete counter-schedule and a `_partial` theorem |
| C13, C14, C24, C43 | unseal functions over arbitrary stored bytes | reduction: acceptance ⇒ honest event for the same ID, or an AEAD forgery is exhibited; needs injectivity of the associated-data encoding |
| C18, C36 | JSON string rendering (invalid UTF-8 is replaced) | exact characterisation; true for valid UTF-8 (`_partial`), counterexample otherwise |
| C20 | sizes of JSON/base64/AES-GCM/KWP outputs | exact formula; documented formula refuted |
| C21 | request trace of Encrypt/Update | relational lemma over two runs |
| C22 | constructors | case analysis |
| C23, C25, C26 | data/token.go, base64 | round-trip; C26 refuted by the decoder's leniency |
| C27–C36 | index/index.go, data/node.go | chain invariant (strictly increasing counters), refinement to `keyword → List identifier`; crash and interleaving semantics as above; C30, C33 refuted by witness |
| C37–C44 | id/standalone*.go | refinement to a directory spec; witnesses for the claims that fail |
| C45, C46 | id/scope.go, id/id.go on 64-bit vectors | bit-extensionality |
| C47–C57 | crypto/* on byte lists | inverse loops by induction over the schedule list; encodings by arithmetic; KMAC object as a state machine |
| C51, C62, C67 | `Model/Heap.lean`: arrays, slices, `append`, `copy`, and the functions of crypto/, io/ and d1.go that write through slices | refinement to the value-level functions with a frame; general refutations for slices with spare capacity |
| C58–C61, C64 | io/* as state machines, keys concrete | refinement; witness schedules |
| C63 | `panic` outcome of `Prog` | program analysis against arbitrary responses; invariant over all concurrent histories for the one place that depends on stored data |
| C65 | the index under concurrency, faults and replays | rely/guarantee invariant on the genuine records ever written |
| C66 | crypto/kwp.go | equality with a separate transcription of SP 800-38F |
| C68 | crypto/random.go | induction over requests |
| C69 | d1.go under all interleavings | `Proofs/Linear.lean`: a program logic with ghost state (the vault, and which call is changing or reading which object) whose judgement `Lin` says that a program linearizes once before it ends; soundness over schedules by induction |
| C70 | id/standalone.go under all interleavings | `Safe` invariants over any steps for what is kept; `Stable`/`Leaves` for deletion; refutations computed |
| C71 | id/standalone.go under all interleavings | `Proofs/Linear.lean` with ghost state (the directory, names used, drawn names, records relied on) |
| C72 | uuid.NewV4 as used by d1.go and id/standalone.go | inversion of runs; RFC 4122 transcribed in `Spec/Uuid.lean` |
| C73 | index/index.go getTaggerAndCryptor, crypto/kdf.go | injectivity of the KMAC input encoding |
| C74 | index/index.go and id/standalone.go against arbitrary answers | induction on the loops; the traces of successful calls as inductive relations |
| C75 | calls on `Mem` and `Bolt` against calls on the abstract store | forward simulation; every written record is a non-empty JSON text |
| C76 | calls on `Mem` step by step against calls on the abstract store | false in general (witness executions); forward simulation with stuttering for undisturbed requests; composed with C69 |
| C77 | the edits of group lists against "the last edit that names it" | induction on the edits |
| C78 | the primitives as FIPS 197, SP 800-38D, FIPS 202, RFC 8018 and RFC 3339 define them | layers of the cipher are inverse to each other; linearity of MixColumns; calendar arithmetic; then the general theorems |
| C79 | `Compare` and `LoginUser` with real PBKDF2 | false (zero padding and pre-hashing of HMAC keys); injectivity of padding for the rest |
| C80 | `AES256GCM.Decrypt` and D1 `Decrypt` with the real AES-GCM | `gfMul` is multiplication in GF(2^128) (the modulus is shown irreducible); the tag is a polynomial in the hash key; number of roots |
| C81 | what the IO Provider sees of `Add`, `Search` and `Delete` of the index | a counting function on requests, proved equal to the number of keywords (the documented claim is false); renaming keywords = another KMAC, renaming identifiers = another AEAD; lockstep of two programs in any environment |
| C82 | every line that every method logs | programs that also log (`LProg`), erasure of the log gives the other model; `LYields` (trace, lines, outcome) for all answers; the script of each method, prefix on failure and equality on success |
| C83 | overlapping index calls without conflict | linearization points (`LinRules`) with a ghost index: `Add` and `Search` by the rely-guarantee proof of C32 per keyword, `Delete` by `Own` (nobody else changes the keyword); a keyword is represented unless its `Delete` is in progress |
| C84 | what keys, nonces and passwords are made of | `Fresh B Q p D`: with the multiset `D` of unused random answers at hand every record `p` sends uses up its own; multisets of tagged answers add up over interleaved calls (`fresh_together`) |
| C85 | outsiders cannot get in | `Within step I E R p`: `Safe` plus a predicate on the effects performed; the invariant `ShutOut` (no outsider's record holds an ID in `G`, the access list is within `G`) is kept by every step of every call |
| C86 | failures are like crashes | `Stops X p`: after a failed request the program is an error leaf; `Env.mended` and `Env.at f` turn a run with failures into one without, in which the calls that failed stop early |
| C87 | Standalone is atomic but for `NewGroup` | `LastWrite p`: the only write is the last effect; `NewGroup` is split after the first of its two writes; failures are reduced to crashes by C86 |
| C88 | The whole library | `Spec/Library.lean`: one machine for directory, sessions, objects, index and tokens; a `Client` decides from results what to call next; the relation joins those of C9/C33, C27 and C44 with the sessions and tokens issued |
| C89 | a moment at which the caller had access | `Props/Moments.lean`: `momentsFrom` lists the steps of one call with their positions in the schedule; a finished call's steps are an execution of its program, and each read is what the store held at that position. The counterexample is put together from sequential runs (`sched_part`, `sched_all`) |
| C90 | outsiders learn nothing | `Proofs/InStep.lean`, `Props/Blind.lean`: `InStep` is a relational logic for two programs in lock-step, with a theorem for concurrent calls (`InStep.sched`). Effects elsewhere are answered alike; the two access records both refuse the caller, because `ShutOut` (C85) holds in both stores |
| C91 | nothing but Decrypt depends on the contents | `Props/Opaque.lean`: `InStep` with stores related by `SameLists` (same IDs, same access lists, everything else equal) and requests by `SameRequest`; encryption draws the same key and nonce whatever the plaintext |
| C92 | scopes are final | `Props/Scopes.lean`: `ScopesAre` (stored users and groups have given scopes) is kept by every step of every call, because user records are rewritten with the scopes that were read and new records get new names; with `Within.sched` (C85) and C91 |
| C93 | callers of the index learn nothing about other keywords | `Props/Keywords.lean`: every effect of an index call stays in the area of the store that belongs to its keyword (`allEff_ixProg`); `area_alone` is the general projection: those who stay in an area that nobody else changes go on as if alone; with `InStep` (C90) |
| C94 | a call's log fields do not show up in other logs | `Props/Loggers.lean` on `Model/Loggers.lean`: loggers as slices; invariant: loggers returned to lie behind those in use, loggers of different calls are apart |
| C95 | contents of objects are secret | `Spec/Games.lean`, `Spec/Spy.lean`: games with probability mass functions; `Proofs/Spy.lean`: programs in which sealing and opening of objects is left open (`SProg`) are adversaries with an oracle (chosen ciphertexts: the oracles also unwrap and decrypt); key wrapping is replaced first, AES-GCM next (two hops); the reductions are explicit |
| C96 | contents of tokens are secret | as C95 |
| C97 | keywords are secret | `Props/KeywordGame.lean`: a call is a function of the two derived keys; with a lazily sampled random function in place of KMACKDF both sides have the same distribution, as their tables correspond (`SameTables`) |
| C98 | contents of objects are authentic | `Spec/Trial.lean`: a game in which results need facts that calls bring about; `Proofs/Trial.lean`: programs in which sealing and opening is left open (`IProg`); key wrapping is replaced, then AES-GCM opens nothing but what it made; an invariant shows that then no result is unfounded |
| C99 | rights are authentic | as C98, with requests that need facts too |
| C100 | contents of tokens are authentic | as C98 |
| C101 | sessions are authentic | as C98; programs that differ only if the random source fails are played alike (`Alike`) |
| C102 | grants of users are authentic | as C98; facts are scopes, memberships and password records |
| C103 | grants of groups are authentic | as C98 |
| C104 | passwords cannot be guessed | the game is played by a tree that refers to passwords by the call that made them (`Proofs/Passwords.lean`); after three hops only comparisons depend on the passwords (`safe_chance`) |
| C105 | identifiers in the index are secret | the game asks for keys per keyword; one keyword after the other is changed from left to right, with both sides played by the same tree of boxes (`Proofs/Mirror.lean`, `matched_gap`) |
| C106 | access lists are secret | both sides do the same, but for the names in what they seal and read (`mirror_accessI`); `contest_gap` of `Proofs/Mirror.lean` |
| C107 | contents are secret from those without access | the game is that of C95 unless somebody wins that of C99 (`guests_near`); an adversary with a memory is no stronger (`Agent.trial_spy`), nor does it matter when random bytes are drawn (`run_late`) |
| C108 | attacks on many keys come down to attacks on one | hybrid argument: the first h keys are random, one is that of the game, the rest are simulated (`sealGap_le`, `forgeGap_le`) |
| C109 | the concurrent calls of C69, C71 and C83 on an IO Provider that fails | `Proofs/Mend.lean`: the execution is turned into one without failures that corresponds to it at every moment (calls that failed and changed nothing are left out, the others end or crash), by induction on the schedule; then C69, C71, C83 |
| C110 | every call, as a program that makes requests | `Proofs/Pays.lean`: a program logic in which a budget is spent, by induction on programs; `Props/WaitFree.lean`: turns are paid for, by induction on the schedule; C65 for the index |
| C111 | histories of C13, where the provider answers as it likes | `Props/Versions.lean`: lists of a version as an inductive relation; by strong induction on the history every sealed list belongs to a version; the key in the list determines the contents |
| C112 | games of C98, keys of the index as in C105 | `Props/Planted.lean`: derived keys replaced by random ones, keywords numbered, union bound over the keyword with which the adversary wins, the key of this keyword drawn first and its wrapped keys replaced; then nothing opens but what was sealed |
| C113 | 32 random bytes for each moment (`reel`), of which the answer to a draw is the beginning; events quantify over all environments inside of the probability | `Props/Freshness.lean`: union bound over pairs of moments, counting of the byte strings with the same version 4 UUID |
| C114 | Grammars of UTF-8, JSON and base64 as relations between bytes and values; documents as an inductive predicate on identifier, type and value | `Spec/Format.lean`, `Proofs/Format.lean`: what is rendered is derived in the grammar, the grammar is unambiguous (induction on derivations, first bytes); `Props/Format.lean`: the programs of all calls |
| C115 | Labels as derived keys; game of C82 for the key derivation; no two equal in a list | `Props/Labels.lean`: first the keys of the keywords become random, then the labels of one keyword after another (hybrids), then the birthday bound of C113 |
| C116 | Game in which calls carry left and right scopes; contest as for C106 | `Props/SecretScopes.lean`: the programs on the left and on the right mirror each other but for what is sealed (`Proofs/Mirror.lean`) |
| C117 | Things with their names; `Confused` lists the exceptions, `Swapped` is what AES-GCM must not do | `Props/Kinds.lean`: associated data of different kinds differ (alphabets, lengths), and the JSON of one kind does not read as another |
| C118 | `Cause` gives for every error what the trace of the call looks like; `Spoiled` is a record that is not genuine | `Props/Errors.lean`: by cases on the point at which a call stops |
| C119 | `IxCause` gives for every error what the trace of the call looks like | `Props/IndexErrors.lean`: by induction along the chain |
| C120 | `DirCause` gives for every error what the trace of the call looks like; `CalledBy`, `Unknown` and `Refused` say what token, clock and password had to do with it | `Props/DirErrors.lean`: by cases on the point at which a call stops |
| C121 | `HoldsOnly` lists the records of a library; the library is what the machine of C88 comes to | `Props/Tidy.lean`, `Props/Confined.lean`: records are made only at IDs, names and labels of used counters, with the relation of C88 for which of them are in use |

## Trusted base

* **Lean**: the kernel of Lean 4.33.0, and that the statements say what the English says. `vcheck` replays every module.
* **Axioms**: no axiom, `sorry`, `admit`, `native_decide` or `bv_decide` of our own. Every theorem named in MANIFEST.json
  depends on a subset of Lean's three standard axioms `propext`, `Classical.choice` and `Quot.sound`. AXIOMS.txt lists them
  per theorem (made with `#print axioms`). Examples use `decide` and `decide +kernel`, which add none.
* **Transcription**: that `Verif/Model/*` says what the Go code says. Each definition cites file and lines.
* **Primitives**: `Prims.Laws` (`Model/Prims.lean`) is what is assumed about code outside the repository. It is a hypothesis
  of the theorems that need it. `Verif/Std/Instance.lean` proves it for the standard algorithms (`C78_laws`), so what is trusted is
  that Go's libraries implement them:
  * AES is a permutation of 16-byte blocks for each key.
  * GCM appends a 16-byte tag, opens what it sealed, and opens only what sealing the result would produce. Secrecy and
    unforgeability are not assumed. Where a claim needs unforgeability, the theorem exhibits the forgery instead, or
    (C98-C104, C112) bounds the probability by the advantages of explicit attacks on key wrapping and AES-GCM. Where it needs
    secrecy (C95-C97, C105-C108, C116), the theorem bounds the advantage likewise (C97, C105: also by attacks on the key derivation).
  * The sponge can be squeezed to any length; PBKDF2 gives 32 bytes. Collision resistance is not assumed. Where it
    matters, the theorem exhibits the collision on explicit inputs.
  * The JSON parser reads what the modelled printer prints, with invalid UTF-8 replaced. `Proofs/JsonParser.lean`
    constructs such a parser. On other input it is an arbitrary function.
  * UUID and time texts read back; time texts contain no characters that JSON escapes.

## What is modelled

| file | modelled | not modelled |
|------|----------|--------------|
| d1.go, utility.go | all methods (`Model/D1.lean`), again with their log lines in `Model/Log.lean` | contexts |
| data/object.go, access.go, token.go, node.go | all (`Model/Data.lean`) | |
| crypto/aes.go, cryptor.go, random.go, password.go | all, on values (`Model/Crypto.lean`); aes and cryptor also on slices (`Model/Heap.lean`) | timing; `passwordHash`'s iteration count is part of the primitive (10000 in `Verif/Std`) |
| crypto/kwp.go | all, on values (`Model/Kwp.lean`) and on slices (`Model/Heap.lean`) | |
| crypto/kmac.go, kdf.go, tagger.go | all (`Model/Kmac.lean`), including cSHAKE's own padding; the Keccak permutation in `Verif/Std` | |
| id/id.go, scope.go | all (`Model/Id.lean`) | |
| id/standalone*.go | all (`Model/Standalone.lean`), again with their log lines in `Model/Log.lean` | |
| index/index.go | all (`Model/Index.lean`), again with their log lines in `Model/Log.lean` | |
| io/io.go, mem.go, bolt.go, proxy.go | all (`Model/Io.lean`); mem and bolt also on slices | bbolt itself, beyond its size limits and transactions being atomic |
| log/log.go | fields of loggers (`Model/Log.lean`), loggers as slices (`Model/Loggers.lean`, which assumes that `UpdateContext` of zerolog appends to the slice of the logger, and that a line reads it when it is printed) | zerolog itself: levels, printing, the texts of errors |
| key/key.go, key/static.go | all (`Keys` in `Model/D1.lean`, `Static.GetKeys` in `Model/Log.lean`) | |
| crypto/interfaces.go | | interfaces have no code |

Simplifications, besides those noted at the definitions:

* Cryptors use the native random source and AES-256-GCM; other implementations of the interfaces are not modelled.
* An error is one of the values of `Err`; wrapping of errors and messages are not modelled.
* The Identity Provider of D1 is an arbitrary program that returns an identity or an error.
* One IO call is one atomic step, except in C61 and C76, where calls on `Mem` interleave between the operations of one IO call. Memory accesses of different goroutines interleave only in the heap theorems.
* Marshalling the repository's own types does not fail. Times are within the years 0 to 9999.
* Only finitely much memory exists in reality; sizes are unbounded here unless the code checks them.

## How to read seeded/LOG.jsonl

Each line is one edit of the model, rebuilt in a scratch copy.

* `failed` has the declarations in which the build reported an error. The build was stopped 25 seconds after the first
  error, and modules that import a failing one are not built, so the list is incomplete.
* `properties_in_modules_not_built` has the properties with a theorem in a failing module or in one that imports it,
  directly or not. It does not say that these properties are false of the edited program.
* Of 309 edits, 78 made a theorem of a property (`C…_…`) fail itself. In 219 only lemmas below them failed. There the
  edit was noticed, but it was not shown that the property's statement is false of the edited program: the lemma's proof
  may follow the text of the definition more closely than the statement needs. These 219 are weaker evidence.
* 12 edits built at first; each led to the theorems under `tightened`.
* To save time the scratch copy left out `Std.Vectors`, `Props.TokenCases`, `Props.DirCases`, `Props.ObjectCases`,
  `Props.LinearFail`, `Props.WaitFree` and `Props.EscalateCase` from the root imports in the runs by the latest script.
* No edit was made specially for `C121_confined`.
