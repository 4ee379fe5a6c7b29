# A Lean 4 model of libsv/libsv

Source: `/repo` (Go, pinned commit). Model and proofs: `/verif/lean/Verif`. Properties: `/verif/properties.jsonl`.
Status per property: `/verif/MANIFEST.json`. Seeded-bug log: `/verif/seeded/LOG.jsonl`.

## Trusted base

* **Lean's kernel** (4.33.0) and the three standard axioms `propext`, `Classical.choice`, `Quot.sound`. No theorem uses any other axiom;
  no axiom is added by this project, nothing is evaluated outside the kernel (`decide +kernel` is kernel reduction).
* **The model** `Verif/Go/*` and `Verif/Model/*`: that these definitions describe the Go code. Each definition cites the file and lines it models.
  The test vectors of the repository are replayed against the model (`Verif/Tests/*`), with SHA-256 and RIPEMD-160 implemented in Lean.
* **The statements**: `Verif/Spec/*` and the theorem statements in `Verif/Props/*`.

### What is assumed about Go and its libraries

* `int` has 64 bits. Slices and strings shorter than 2^62 (theorems that need it say so), allocation does not fail, no data races.
* `encoding/hex.DecodeString` of Go 1.13+: decodes in place, returning a slice whose spare capacity holds the not yet overwritten characters of the string and the
  allocator's rounding (`extra`, arbitrary).
* `encoding/base64`, `crypto/cipher` CFB, base58 (`bitcoinsv/bsvutil`), `regexp` (for the one BIP276 expression), `strings.Split/TrimSpace`, `strconv.Atoi`, `strconv.ParseFloat`,
  `fmt` verbs `%x`, `%d`, `%.2f`, `sort.Sort`, `bytes.Compare`, `math/big` are re-implemented from their documentation.
* float64: exact rationals rounded to nearest even. `HumanHash` and `DifficultyToHashrate`, which take a float64 from the caller, are over all of float64
  (`Model/Double.lean`: sign, magnitude, infinities, one NaN; `rnd64_roundsTo` proves the rounding nearest-even among all finite float64 including subnormals).
  `DifficultyFromBits` uses `rnd` (53 bits, unbounded exponent): all its values are non-negative and in the normal range. Go never fuses `x*y/z`, so each operation rounds once.
* SHA-256, RIPEMD-160: an arbitrary `HashFns` (two functions with output lengths 32 and 20). Nothing else about them is assumed: collision statements have the form
  "equal, or these two concrete computed strings collide".
* ECDSA (`bsvec`), BIP32 (`hdkeychain`), block ciphers, the random source: arbitrary functions, passed as parameters.

### What is modelled

All exported functions of `utils`, `crypto`, `script`, `script/address`, `transaction`, `transaction/input`, `transaction/output`, `transaction/signature`, `block`, and their helpers, except those below.

### What is not modelled

* The text inside error values is only kept where it is fixed; wrapping by `fmt.Errorf("%v", err)` is reduced to "an error".
* `log` output, time. The library starts no goroutine; callers' goroutines are modelled for signing (C87-C89), sorting
  redeem scripts (C92), adding to transactions and redeem scripts (C105), appending to scripts (C118), reading scripts while others append (C119) and serialising while others sign (C106), as sequentially consistent interleavings of the accesses. For schedules with a data race (exactly characterised in
  C88, C105, C106, C118 and C119) Go itself promises less than that.
* Memory growth of `append` is a parameter (any capacity at least the needed one).

## Modelling conventions

* **Bytes.** Go `[]byte` and Go `string` are both `Bytes = List UInt8` (a Go string *is* a byte sequence). `uint8/16/32/64`
  are Lean's `UInt8/16/32/64` (wrap-around arithmetic). Go `int` is an `Int` that is wrapped by `wrap64` after each operation that the code can overflow.
* **Outcomes.** A Go call ends in a value, an error value, or a run-time panic: `Res α = ok a | err msg | panic`.
  Index and slice expressions that Go bounds-checks are modelled by functions that return `panic` out of range, so
  "never panics" is a theorem or a refuted claim, not an assumption.
* **Slices and capacity.** Where the code re-slices up to *capacity* (`b[1:9]` in `DecodeVarInt`, `b[0:32]` in `Decode32Byte`)
  the argument is `Slice = (data, spare)`, `spare` being the bytes of the backing array between len and cap; theorems quantify over `spare`.
* **Memory.** Aliasing (shared backing arrays, in-place writes, `append` into spare capacity) is modelled in `Go/Heap.lean`, `Model/Heap.lean`: a memory is a list of arrays, a slice
  is a header (array, offset, length, capacity). The heap versions of functions are proved to refine the value-level ones, and C62, C64, C65, C69, C82, C104 are about them.
* **Pointers.** `*Input`, `*Output`, `*Script`, `*Transaction` are followed in place (values) in `Model/Tx`, `Model/SigHash`; `Model/Objects.lean` has them explicit, with nil and sharing, and C76, C77 relate the two.
* **Errors of the code.** Where the code violates the property one would want, the property in `properties.jsonl` states what the code does *exactly* (an "if and only if" or the complete outcome),
  with the ideal and the deviation spelled out in parentheses. The theorem proved is the exact one; the deviation is shown by a `_violation` theorem, if possible for
  every instance, else with a concrete witness; the ideal restricted to where it holds is a theorem with suffix `_on_domain`. The list is below.

## Layout

`Verif/Go/*` (Go runtime and libraries), `Verif/Model/*` (function-by-function model, each definition citing file:lines),
`Verif/Spec/*` (independent specifications), `Verif/Lemmas/*` (helper proofs), `Verif/Props/*` (property theorems, each with a non-vacuity example),
`Verif/Tests/*` (71 assertions of the repository's own test suite replayed in the kernel against the model, with real SHA-256 and RIPEMD-160 in Lean; ECDSA and BIP32 results taken from the test's expected values).

## Per property

| id | modelled | proof |
|----|----------|-------|
| C01-C03 | `VarInt`, `DecodeVarInt` on `Slice` | case split on size class, little-endian digit induction |
| C04 | `ReverseBytes` swap loop, `ReverseHexString` loop | loop invariant, list induction |
| C05 | `Equals` loop, `sort.Sort` as a sorting function | uniqueness of sorted permutations of a total order |
| C06 | `GetLittleEndianBytes`, `Decode32Byte` on the slice returned by in-place hex decoding | digit induction; all outcomes |
| C07, C08, C10 | `GetPushDataPrefix`, `EncodeParts`, `DecodeParts` with uint16/uint32 wrap | list induction; exact round-trip and panic domains |
| C09 | same, spec = token grammar (`Spec/Tokens`) | induction on input length |
| C11 | script append state machine | induction over operations |
| C12, C13 | opcode tables (generated from source), `NewFromASM`, `ToASM` | table facts by kernel computation over all 256 bytes; list induction; exact round-trip domain |
| C14-C20 | script predicates | decoding lemmas; exact accepted sets and panic domains |
| C21 | output constructors | from C07/C08/C11 |
| C22-C27 | base58, `set58`, address functions | positional-notation arithmetic by induction |
| C28, C29 | `EncodeBIP276`, `DecodeBIP276`, regexp as a split | list reasoning; exact round-trip and panic domains |
| C30, C31 | `RedeemScript` | C05, C07; histories |
| C32 | `NewRedeemScriptFromElectrum`, hdkeychain as parameter | exact success and panic domains |
| C33-C37 | input/output/transaction codecs, spec = grammar (`Spec/TxFormat`) | induction over lists; exact grammar; exact panic domains |
| C38 | `GetTxID` | from C33 |
| C39-C42 | remaining `Transaction` methods | direct; histories by induction |
| C43-C46 | `GetInputSignatureHash` | against a separate spec of the digest algorithm (`Spec/Digest`) |
| C47-C50 | `InternalSigner`, `ApplyUnlockingScript`, `NewP2PKHUnlockingScript` | invariants over inputs; signature scheme is a parameter |
| C51-C55, C67 | Merkle functions | induction on tree levels against `Spec/Merkle` |
| C56, C57 | compact bits; float64 as exactly rounded rationals | arithmetic |
| C58-C60 | header, coinbase | C33/C37 |
| C61-C63 | CFB, base64, hashes | list induction; block cipher is a parameter |
| C64, C65, C69 | heap model of slices | separation argument; refinement of the value-level model |
| C70, C71 | signed inputs run by a separate script evaluator (`Spec/Interp`); payment then spend | evaluation of the concrete opcode sequence for every key, hash and signature; C33, C44, C47 |
| C72 | P2SH `GetAddress` | C22, C30; collision disjunct names the two redeem scripts |
| C73, C74 | script hex text, `Input.String`, `Output.String` (`Model/Text`) | hex codec lemmas; exact text |
| C75 | template -> coinbase -> Merkle root -> header | composition of C51-C60, collision disjunct names the two header strings |
| C76-C81 | transactions as pointers: objects in a store, `[]*Input` as slice headers (`Model/Objects`); any `Signer` | following pointers gives the value-level model (C76); simulation with a separation invariant over histories (C77); exact effect of sharing (C78, C81), of nil (C79), of a signer (C80) |
| C82 | heap model of `DecodeParts`, `GetPublicKeyHash` | refinement of the value-level decoder, header of each part by induction over tokens |
| C83-C86 | the scripts the library builds under the separate evaluator (`Spec/Interp`, with OP_CHECKMULTISIG and OP_RETURN) | unique tokenisation (C09) and evaluation of the token list on an arbitrary stack |
| C87-C89 | goroutines calling `Sign`/`SignAuto` on one shared transaction: one step per access to memory some call writes, schedule = list of goroutine numbers (`Model/Concurrent`) | invariant over all schedules (local facts per program counter, stable under the others' steps); access log for races; progress measure; permutation by last writers |
| C94 | `EncodeBIP276` | text specification; last-colon splitting |
| C95 | `ToASM`, `NewFromASM` | word specification (Spec/Asm), induction over words |
| C96 | `GetPublicKeyHash`, `IsP2PKH`, `IsP2SH` | token specification; checked indexing |
| C97 | `Encrypt`, `Decrypt`, base64, CFB | positional specification of CFB and character specification of base64 (Spec/Cipher); induction over blocks and groups |
| C98 | `GetRedeemScript`, `IsMultisigOut` for any number of keys | tokens, then the separate evaluator (Spec/Interp, with OP_NOP) |
| C99 | the four address constructors | canonical base58 text (C22), hex text (C73) |
| C100 | `DecodeBIP276`, `ValidateAddress` | specification of the text, with the matcher's characterisation of C29 |
| C92 | `GetRedeemScript` called by several goroutines on one object: `sort.Sort` as a state machine over `Less`/`Swap`, one step per element access (`Model/SortSteps`) | invariants over all schedules for any sorting algorithm that swaps nothing in sorted input; panics characterised exactly; a decreasing measure for the return of each call; explicit schedule for the lost key |
| C93 | redeem script structs with shared key arrays (`Model/RedeemObjects`) | simulation with a separation invariant over histories; exact effect of sharing after a copy |
| C66, C68, C90, C91 | `HumanHash`, `DifficultyToHashrate` over all of float64 (`Model/Double`) | rounding of rationals proved to be nearest-even (`rnd64_roundsTo`), monotonicity, decimal digits |
| C101 | `ToBytes` of every transaction, also with texts that are no txids | grammar with a specification of lenient hex decoding (Spec/TxBytes); C35 for reading back |
| C102 | `BuildCoinbase` with extra nonces of any length | unique reading of the announced length; a transaction built for the redirected outputs and C33 |
| C103 | `GetMerkleBranches`, `BuildMerkleRootFromCoinbase` on any texts | general fold lemma of C51, specification of the bytes of a text |
| C104 | Model/HeapSerial: the serialisers, EncodeParts, ReverseBytes and the digest on slice headers in an explicit memory, growth policy arbitrary | invariant "built after m" carried through every append, loops by induction |
| C105 | Model/ConcBuild: `x = append(x, e)` cut into its accesses to shared memory, any schedule | invariant "every element is the base's or belongs to a goroutine whose place it is" over all schedules; the converse by building a schedule for every outcome; in Props/ConcLog, for this claim and C92, C118, C119, C122, C124, C126, C127: a step changes no place without a recorded write, and depends on none without a recorded read |
| C106 | Model/ConcRead: `ToBytes` cut into its reads of memory that signers write, interleaved with Model/Concurrent by any schedule | invariant over all schedules: the bytes collected are the fields of possible scripts; signers never take a script away, so the second and third read cannot meet nil; access logs for races; witnesses by explicit schedules |
| C107 | Model/Work: the loops of `Transaction.NewFromBytes`, `DecodeParts`, `GetMerkleBranches` with a counter | erasing the counter gives the other models (induction); counts by induction over the announced count, using the length of what each iteration consumed |
| C108 | Model/Work: `GetInputSignatureHash`, `Sign`, `SignAuto` counting the bytes hashed | exact count for one input; signing leaves everything the digest reads, so the counts of the inputs add up; sums over the selected inputs |
| C109 | nothing new: the models of the named functions, in which every index, slice and fixed-width read can panic | composition of no-panic lemmas; for the others the exact condition |
| C110 | Spec/Handover: putting previous outputs back, jobs, a relay of parties; the signing and codec models are those of C33, C43, C47, C48 | a bisimulation (`SameTx`: equal up to hex case of txids and nil/empty unlocking scripts) preserved by every signing step and erased by `ToBytes`; induction over the parties |
| C111 | Spec/Bip34: script numbers, shortest forms, the push of a number (proved to exist and to be unique for every height) | composition with C59; arithmetic on the lengths of script numbers |
| C112 | nothing new | injectivity of the serialisation (C38), C47, C83 in both directions, acceptance does not depend on other unlocking scripts |
| C113 | Model/Stateful: method bodies over a state kept on failure; Spec/Failure: all or nothing | refinement to the functional models; induction over histories; loop invariant of SignAuto up to the first unreadable script; digests do not depend on other inputs' scripts |
| C114 | nothing new | exact size of a serialised transaction, exact form of unlocking scripts, sums over inputs |
| C115 | nothing new; Spec/Ledger (a node's checks and its unspent outputs, a wallet that uses the API) | C41 for what the calls build, C70 for the scripts, C33/C35 for the bytes; induction over the history with the invariant that the wallet's coins are in the ledger, each once |
| C116 | nothing new; Spec/Chain (a node's checks on a block) | unique reading of the block bytes (prefix-freeness of header, count and transactions), C51/C75 for the root, C56 for the target, C59/C111 for the coinbase, C115's invariant for the wallet |
| C117 | nothing new; Spec/Authorise (what a signature covers, the two kinds of collision, ideal unforgeability) | non-interference of the signer on other digests; C83 for the accepted script, the injectivity of the preimage (C45) for what it binds, induction over the history |
| C118 | Model/ConcScript: `*s = append(*s, p...)` cut into single bytes, any schedule, over the memory model of Go/Heap | invariant "every byte is the base's or the one its goroutine puts there; every length is the base and whole calls" over all schedules; solo runs by induction on the bytes; the mixtures by building a schedule |
| C119 | Model/ConcScriptRead: readers (header once or twice, then byte after byte) beside the appending goroutines of C118 | the invariant of C118 extended to readers; for appends that do not overlap an exact invariant (memory behind a header never changes) and a history argument that names the moment of the snapshot |
| C120 | nothing new; Spec/Balance (what belongs to keys, balances, contents of blocks) | the invariant of C115 made two-sided (every unspent output of the keys is known), sums over permuted lists of distinct outpoints, commutation of the coinbase with the transactions of its block, unique reading of a block, induction over chains |
| C121 | nothing new; relay of C110, node of C115 | SignAuto as a pointwise map over inputs whose new scripts do not depend on unlocking scripts, so that keys with different hashes commute; what nobody signs stays empty and an empty script spends no P2PKH output (C83); the rest as for C115 |
| C122 | Model/ConcMix: calls as programs of looks at the slice variables of Model/ConcBuild, interleaved with the goroutines that add | invariants over arbitrary schedules: every header that anyone holds shows a prefix built from the start and additions (extends C105); without overlap each look shows the value of its moment; then per method a case analysis of which moments can be merged; concrete schedules for the deviations |
| C123 | the same with *bt = *signedTx as two steps (read all headers, write all headers) | a path lemma: a signing call reaches the assignment with nothing changed; adders between its halves do not change what the old header shows; permutation of additions when nothing overlaps |
| C124 | Model/ConcRedeem: GetRedeemScript access by access (sort of Model/SortSteps inside of the arrays of Model/ConcBuild) beside goroutines that add | invariant with the set of goroutines whose key is in a header: every header anyone holds lies inside of its array and shows known keys, its length bounded by that set; step counting for termination; path lemmas for an uninterrupted call, with the additions placed before its store or before its count for the deviations |
| C125 | nothing new: Model/Block (Merkle functions, header) and Spec/Merkle | a proof of the depth of the tree leads to a leaf, by induction over the levels; header offsets from C58, completeness from C53; deviations by unfolding one level of the proof |
| C126 | Model/ConcDecrypt: Decrypt as steps on the bytes of the shared slice | invariant over all schedules for the first block; one call alone by induction over blocks and bytes; the blends by constructing a schedule byte by byte; a measure for termination; the log for races |
| C127 | Model/ConcMerkle: BuildMerkleRootFromCoinbase as steps on the shared array | invariant over all schedules; the converse by constructing a schedule byte by byte; a measure for termination; the log for races |
| C128 | Spec/Fee on top of the ledger of C113-C115: sizes computed before signing | induction over the inputs signed; the length of the unlocking script is 35 plus the signature and its type byte; the ledger theorem C115 for acceptance |
| C129 | Spec/Pool: jobs and shares on top of the node of C116 | induction along the Merkle path for the collision; C116 for acceptance; the coinbase of C102 with chosen outputs is a valid one |
| C130 | Spec/Secret: which opcode pushes what; programs for seller and buyer over the model | C84 gives the pushes, tokens give the parts, C47 the signature |
| C131 | Spec/Publish: data scripts, what they read as, harmful scripts; programs for publisher and reader over the model | C115 gives the payment, C33 and C35 the bytes, C18, C21 and C10 the scripts |
| C132 | Spec/Pledge: coins, goals; programs for contributor and organiser over the model; node of C115 | with ANYONECANPAY the digest depends on the outputs only (preimage_acp), C117 for safety |
| C133 | Spec/Flags: keys that sign well; Model/SigHashFlag: the rest of the constants; node of C115 | the flag byte decides (C83_p2pkh_iff), all 256 flags by evaluation in the kernel, C47/C48 for what is signed |
| C134 | Spec/Offer: the calls of an offer; programs for seller and buyer over the model; node of C115 | with SINGLE and ANYONECANPAY the digest depends on the output at the same position only, C70 for the buyer's inputs, C117 for safety |
| C135 | programs of C134 and one that takes an input out of them; node of C115 | C117 for what is bound; the digest has no outputs if there is none at the position, for the rest as C134 |
| C136 | Model/ScriptObjects: the methods of `*Script` on the pointers of Model/Objects; programs of the calls of C77 and appends through fields | outcomes by computation; C136_shared by following each field; C136_history by the simulation of C77 with two more invariants (no script object in two fields, no output object in two places) |
| C137 | no new code: typos of address texts as relations between texts (Spec/Typo) on the models of C22–C26, C115, C120 | a typo changes the value of the numeral by e·58^k or 57e·58^k; sizes against 2^32 and 111·2^192 (kernel-computed for k < 64) |
| C138 | no new code: finality by height and time (Spec/LockTime) on the models of C70, C114, C117 | the sequence numbers and the lock time survive signing, serialising and parsing; what a locked signature authorises is not final |
| C139 | no new code: what a ledger is after two versions (Spec/Versions) on the models of C112, C115, C117 | ledgers after the same inputs and outputs differ by the hash only; what is not there stays away |
| C140 | no new code: the text of a request (Spec/Request) on the models of C28, C94, C100, C115 | the last colon splits the text; the fields have fixed lengths from both ends; what is read determines what the checksum covers |
| C141 | no new code: two programs of calls (escrowSignature, release) on the models of C05, C43, C86, C115; Spec/Escrow says what an owner agreed to | the accepted items are m signatures by a sublist of the sorted keys (C86); each verified digest is one the owner was asked for, so the preimages agree (C44) or collide; a sorted part of the keys is a sublist of the sorted keys |
| C142 | no new code: the escrow of C141 under the rule of lock times of C138 | what spends the output is final where it is accepted, so it is not one a locked signature authorises (C138); both owners agreed (C141), so its outputs are those of an update and of a taken one |
| C143 | no new code: one program of calls (certified) on the models of C33, C53, C58, C131; Spec/Notary says what is recorded | what is read is a transaction whose own bytes give the txid; the proof leads to a leaf (C125), so these bytes are in the block or there is a collision; the data is what C131 reads |
| C144 | no new code: the payments of C115; Spec/Order says what is unspent after transactions that have nothing to do with each other, without an order | what is accepted alone is accepted after another one that spends nothing of the same: the ledger differs only at its outputs and inputs; the outcome is determined by a description that is symmetric in the transactions |
| C145 | no new code: programs of calls (noteCalls, readNotes) on the models of C61, C97, C131, and on the byte memory of C62, C82 for the reader's copy | composition of C131 (publish, read) with C61 (round trip); in memory: a part is a window of the script (C82), Decrypt writes exactly its bytes behind the first 16 (C62) |

## Deviations found

Where the code does not do what its name, comment or counterpart promises. Each is proved.

| property | deviation | theorem |
|----------|-----------|---------|
| C06 | `Decode32Byte` accepts hex of 32..62 digits and pads with leftover ASCII characters; shorter strings panic | `C06_decode32_violation` |
| C07, C10 | a push of 65533..65535 or 2^32-5..2^32-1 bytes makes `DecodeParts` panic (`uint16`/`uint32` wrap) | `C07_roundtrip_iff`, `C10_panic_iff` |
| C12 | `NewFromASM(ToASM(s))` changes one-byte, empty and non-minimal pushes | `C12_asm_roundtrip_iff` |
| C16, C17, C19 | `IsP2PK`, `IsMultisigOut` do not tell pushes from opcodes; `IsData` and `IsMultisigOut` overlap | `C16_violation_witness`, `C17_violation_witness`, `C19_overlap_iff` |
| C20 | `IsData`, `IsP2PK`, `IsMultisigOut`, `ToASM`, `GetPublicKeyHash` panic on some scripts | `C20_panic_domains` |
| C24 | `ValidateAddress` accepts any number of leading '1's | `C24_violation` |
| C25 | `NewFromString`, `NewP2PKHFromAddress`, `PayTo` never verify the address checksum | `C25_violation` |
| C28, C29 | BIP276 round trip only for network = version <= 9; decoding panics on malformed text | `C28_roundtrip_iff`, `C29_panic_iff` |
| C32 | malformed Electrum scripts panic | `C32_panic_iff` |
| C36 | truncated transactions panic | `C36_transaction_panic_iff` |
| C39 | `IsCoinbase` accepts any final input with zero txid | `C39_violation` |
| C42 | `ToBytesWithClearedInputs` drops outpoint and sequence of the kept input | `C42_violation` |
| C45 | ids that are not 64 digits long are accepted; two different spends can then share one preimage, so a signature for one is good for the other | `C45_violated` |
| C46, C49 | an index without input panics | `C46_violation`, `C49_violation` |
| C46 | SINGLE with an index of at least 2^31 that has an output panics (the index becomes a negative int32) | `C46_every` |
| C48 | `SignAuto` signs scripts that only begin like P2PKH | `C48_violation_witness` |
| C55 | `MerkleRootFromBranches` accepts negative indices | `C55_violation` |
| C56, C57 | large targets panic, the sign is dropped; `DifficultyFromBits` uses another target for small exponents and negative values | `C56_violation_large`, `C56_violation_sign`, `C57_violation` |
| C58, C59 | field sizes and heights of 2^24 and more are not checked | `C58_unchecked`, `C59_height_truncated` |
| C62 | `Decrypt` overwrites its argument | `C62_violation` |
| C64 | appending to one parsed script overwrites another | `C64_violation` |
| C65 | `BuildMerkleRootFromCoinbase` writes behind its first argument | `C65_violation` |
| C67 | the last txid of an odd list may be repeated without changing the root (inherent to the Bitcoin Merkle tree) | `C67_*` |
| C72 | the library refuses its own P2SH addresses (`NewFromString`, `PayTo`) | `C72_violation` |
| C74 | `Input.String` shows the txid as hex of hex and panics without unlocking script | `C74_violation` |
| C69 | a parsed transaction aliases the caller's buffer | `C69_*` |
| C78 | an input object handed to two transactions is signed in both, with the digest of one | `C78_shared_violated`, `C78_sign` |
| C80 | signing overwrites a zero `SigHashFlag` of the signer, even when it fails | `C80_flag` |
| C81 | after `Sign` the transaction shares its arrays with the one the signer returned | `C81_sign_violated` |
| C82 | parts of `DecodeParts` and the hash of `GetPublicKeyHash` alias the script | `C82_overwrite`, `C82_append`, `C82_public_key_hash_shared` |
| C83 | a signer flag that no node accepts is signed with, without an error | `C83_undefined_flag` |
| C85 | `IsData` recognises bare OP_RETURN scripts, which anyone can spend | `C85_bare_return_spendable` |
| C86 | a redeem script with more required signatures than keys is built and can never be spent | `C86_too_many_required` |
| C88 | two goroutines that sign different inputs through `Transaction.Sign` race: the method writes the whole struct back | `C88_method_violated` |
| C89 | concurrent `SignAuto` calls are not linearizable | `C89_auto_violated` |
| C90 | negative hash rates are never scaled: `HumanHash(-5e6)` is `-5000000.00 H/s` | `C90_sign_violated` |
| C92 | two concurrent `GetRedeemScript`/`GetAddress` calls can lose a key of the redeem script for good and return a script with one key twice | `C92_lost_key`, `C92_races` |
| C93 | a copy of a `RedeemScript` struct shares the key array: adding to or sorting one changes the keys of the other | `C93_copy_add_add`, `C93_copy_add_get`, `C93_history_violated` |
| C94 | a negative network or version is not refused by `EncodeBIP276`; the text makes `DecodeBIP276` panic | `C94_negative_violated` |
| C96 | `GetPublicKeyHash` answers for scripts that are not P2PKH | `C96_not_p2pkh` |
| C97 | ciphertexts are not authenticated: a known text can be replaced by any other of its length | `C97_forgery` |
| C98 | more than 16 keys are accepted: 17 give an unspendable script, 26 one that anyone can spend | `C98_seventeen`, `C98_twentysix` |
| C99 | `NewFromPublicKeyHash` does not check the length of the hash | `C99_wrong_length` |
| C100 | `ValidateAddress` accepts prefixes other than `bitcoin-script` | `C100_other_prefix` |
| C101 | txids are not checked: `From` takes any text, and what is serialised can be read back as another transaction | `C101_malformed` |
| C102 | the length of the extra nonces is not checked: the second one can replace the outputs | `C102_redirect` |
| C103 | texts that are not hex are not reported by `GetMerkleBranches` | `C103_not_reported` |
| C104 | `script.NewFromBytes` keeps the caller's buffer: later writes to it change the script | `C104_from_bytes_shared` |
| C105 | Two goroutines calling `AddInput` (`AddOutput`, `AddPublicKey`): elements are lost | `C105_lost`, `C105_outcomes` |
| C106 | `ToBytes` of a transaction whose input is signed anew at that moment returns bytes that are no transaction, or another transaction; while inputs are signed for the first time it can return a state that never was | `C106_torn_violated`, `C106_other_violated`, `C106_never_violated` |
| C108 | signing all inputs hashes a number of bytes quadratic in the number of inputs: the inner hashes are computed anew for every input | `C108_quadratic`, `C108_repeated` |
| C109 | malformed user input panics instead of giving an error: `ValidateAddress`, `Decode32Byte`, `DecodeStringParts`, `NewFromString` | `C109_hex`, `C109_validate` |
| C110 | `SignAuto` on a transaction obtained by parsing signs nothing and reports no error, though it signs the same transaction in memory | `C110_parsed`, `C110_silent_violated` |
| C111 | coinbases of heights below 32768 or from 8388608 on do not begin with the height as BIP34 demands | `C111_height`, `C111_violated` |
| C113 | `SignAuto` that panics leaves the inputs before the unreadable one signed | `C113_auto_violated`, `C113_auto_panic` |
| C113 | a failed `Sign` has replaced the signer's flag 0 | `C113_signer_violated` |
| C115 | duplicate use of an output, outputs exceeding inputs, no outputs and no inputs are not noticed when building or signing | `C115_violated` |
| C116 | GetCoinbaseParts succeeds for heights below 32768 or from 8388608 on and for amounts above the reward; no block with such a coinbase is accepted | `C116_violated` |
| C118 | Two goroutines pushing to one script can leave data that nobody pushed, or a script that does not decode | `C118_torn`, `C118_undecodable` |
| C119 | Output.ToBytes evaluates its script twice: with one goroutine appending, it returns a length and bytes that do not belong together | `C119_output_violated`, `C119_output_serial` |
| C122 | ToBytes during an AddOutput returns bytes that claim two outputs and hold three, which the library does not parse | `C122_toBytes_violated` |
| C122 | GetInputSignatureHash with ALL during an AddInput returns a digest of no moment | `C122_digest_violated` |
| C122 | GetInputSignatureHash with SINGLE panics on an input that is there, when additions of outputs overlap | `C122_single_crash` |
| C123 | whatever is added during the transaction's own Sign or SignAuto can be lost without an error | `C123_lost` |
| C124 | keys added during a GetRedeemScript can all be lost, without an error | `C124_lost` |
| C124 | a GetRedeemScript during AddPublicKey can return a script that claims more keys than it lists | `C124_miscount`, `C124_miscount_nobody` |
| C125 | MerkleRootFromBranches with one branch fewer accepts an inner node of the tree as a txid | `C125_inner_node` |
| C125 | with one branch more it accepts half of a 64-byte transaction as a txid | `C125_half_transaction` |
| C125 | it accepts the last transaction of an odd list at the position behind the end | `C125_position_behind` |
| C126 | two goroutines that decrypt one ciphertext can both get a wrong text without an error | `C126_violated`, `C126_blends` |
| C127 | a call can return the root for another call's branch, or for another array's content, when slices share an array with room | `C127_violated`, `C127_neighbour`, `C127_returns_iff` |
| C129 | different extra nonce texts give one header; an extra nonce of another length redirects the reward in an accepted block | `C129_violated`, `C129_stolen` |
| C130 | a push of 65533 bytes put in front of an unlocking script is accepted by nodes and makes the reader of the secret panic | `C130_violated` |
| C131 | an output of no value that is empty, or announces a push of 65533 bytes behind OP_RETURN, is accepted by nodes and makes a reader of data panic | `C131_violated` |
| C133 | the exported constants `All`, `None`, `Single`, `AnyOneCanPay` and `AnyOneCanPayForkID` make signatures that no node accepts, without an error | `C133_violated` |
| C135 | with SINGLE and ANYONECANPAY, `SignAuto` signs inputs that have no output at their position, without an error; anyone can spend them | `C135_taken` |
| C136 | a `PreviousTxScript` filled in with another transaction's locking script is that script: appending to it changes the other transaction | `C136_shared_violated` |
| C137 | `PayTo` pays every one of the 57·31 mistypings of one of the last 31 characters of an address, to another key hash if at least six characters follow | `C137_violated` |
| C138 | the lock time of a transaction whose coins were added with `From` has no effect: the sequence numbers are all 0xffffffff | `C138_violated` |
| C140 | ValidateAddress says true, PayTo of the same text fails; one wrong character panics; test network requests cannot be read | EncodeBIP276("bitcoin-script", 1, 1, s), then PayTo; a letter o for a 0; EncodeBIP276("bitcoin-script", 2, 1, s) |
| C143 | a certificate for a transaction that is in no block passes, if the number of branches is not checked | exCarrier in the block, exForged in none (Props/Notary) |
| C145 | reading a note leaves its base64 text in the script, in the clear; forged notes are read as genuine | every note in every script (Props/Notes) |
