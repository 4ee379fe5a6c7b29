{"id": "C01", "title": "VarInt round-trips through DecodeVarInt", "statement": "For every uint64 i, DecodeVarInt applied to VarInt(i) followed by any bytes returns exactly (i, len(VarInt(i))); the trailing bytes are never looked at.", "quantifier": "every uint64 value, every trailing byte string", "why_tests_cant": "2^64 values times unbounded tails; the encoder has three size boundaries where an off-by-one is invisible to sampled values", "anchors": ["utils/VarInt.go:VarInt", "utils/VarInt.go:DecodeVarInt"]}
{"id": "C02", "title": "VarInt is canonical: shortest and prefix-free", "statement": "VarInt(i) has length 1, 3, 5 or 9 according to i < 0xfd, < 2^16, < 2^32 or more; no byte string that DecodeVarInt decodes to i consumes fewer bytes; and if VarInt(i) followed by some bytes equals VarInt(j) followed by some bytes then i = j.", "quantifier": "every pair of uint64 values and every tail; every byte string that decodes to the value", "why_tests_cant": "a minimality claim ranges over all alternative encodings", "anchors": ["utils/VarInt.go:VarInt", "utils/VarInt.go:DecodeVarInt"]}
{"id": "C03", "title": "DecodeVarInt failure domain", "statement": "DecodeVarInt panics exactly when the slice is empty or its backing array (capacity, not length) is shorter than the size announced by the first byte; otherwise the size is 1, 3, 5 or 9, and when the slice's length covers that size the result depends only on those bytes.", "quantifier": "every slice: every visible content and every content of the spare capacity", "why_tests_cant": "depends on hidden capacity bytes that a test with literal slices never varies", "anchors": ["utils/VarInt.go:DecodeVarInt"]}
{"id": "C04", "title": "Byte and hex-string reversal", "statement": "ReverseBytes returns the reversed sequence without changing its argument, and is its own inverse; ReverseHexString of an even-length string is its own inverse, and on the hex encoding of b equals the hex encoding of ReverseBytes(b); an odd-length string is treated as if it had a leading 0.", "quantifier": "every byte string and every string", "why_tests_cant": "unbounded lengths, both parities; loop bounds", "anchors": ["utils/ByteManipulation.go:ReverseBytes", "utils/ByteManipulation.go:ReverseHexString"]}
{"id": "C05", "title": "Equals decides equality; SortByteArrays sorts", "statement": "Equals(a,b) is true exactly when a and b are the same byte sequence; SortByteArrays returns a permutation of its argument in non-decreasing bytes.Compare order, and this result is the same for every ordering of the same multiset.", "quantifier": "every pair of byte strings; every list of byte strings and every permutation of it", "why_tests_cant": "n! permutations", "anchors": ["utils/ByteManipulation.go:Equals", "utils/ByteManipulation.go:SortByteArrays"]}
{"id": "C06", "title": "Fixed-size little-endian and 32-byte helpers", "statement": "GetLittleEndianBytes(v,l) for l >= 4 returns l bytes whose little-endian value is v, and panics for l < 4. Decode32Byte fails with an error on every string that is not hex and returns the first 32 decoded bytes of every hex string of 64 or more digits. (Ideal: it fails on shorter hex strings. Deviation, exactly: the decoder works in place, so a shorter hex string is accepted and padded with the leftover characters of the string and the bytes behind them as soon as these make up 32 bytes - always from 32 digits on - and otherwise the call panics.)", "quantifier": "every v, l, hex string and every spare capacity of the decoded slice", "why_tests_cant": "ranges over all lengths and over memory contents past the slice length", "anchors": ["utils/ByteManipulation.go:GetLittleEndianBytes", "utils/ByteManipulation.go:Decode32Byte"]}
{"id": "C07", "title": "Push-data round trip", "statement": "For every list of non-empty byte strings that EncodeParts accepts, DecodeParts(EncodeParts(parts)) = parts exactly when no part has a length in 65533..65535 or 2^32-5..2^32-1; if one has, DecodeParts panics. (Ideal: always equal. Those eight lengths are the deviation.) An empty part is read back as the one-byte part 00.", "quantifier": "every list of byte strings of every length", "why_tests_cant": "the four prefix forms have boundaries at 75/255/65535 bytes and unsigned-overflow boundaries near 2^16 and 2^32", "anchors": ["script/OpPushdata.go:EncodeParts", "script/OpPushdata.go:DecodeParts", "script/OpPushdata.go:GetPushDataPrefix"]}
{"id": "C08", "title": "Push-data prefix form", "statement": "GetPushDataPrefix(d) succeeds exactly when len(d) <= 2^32-1; the prefix is the one-byte length up to 75 bytes and otherwise the shortest OP_PUSHDATA1/2/4 form that can hold the length; EncodeParts is the concatenation of prefix and data over its parts and fails exactly when one part is too long.", "quantifier": "every byte string / list of byte strings", "why_tests_cant": "unbounded lengths", "anchors": ["script/OpPushdata.go:GetPushDataPrefix", "script/OpPushdata.go:EncodeParts"]}
{"id": "C09", "title": "DecodeParts is a lossless tokenizer", "statement": "When DecodeParts succeeds on b, b is a concatenation of script tokens (single opcodes, or pushes with their length prefix) and the returned parts are exactly the tokens' payloads in order; when it returns an error, the parts it returns are the payloads of complete tokens at the front of b and what follows them is a truncated push.", "quantifier": "every byte string", "why_tests_cant": "unbounded input space, unbounded number of tokens", "anchors": ["script/OpPushdata.go:DecodeParts"]}
{"id": "C10", "title": "Panic domain of DecodeParts", "statement": "DecodeParts returns normally (parts or the error 'Not enough data') on every byte string except, exactly, those in which complete tokens are followed by OP_PUSHDATA2 announcing at least 65533 bytes or OP_PUSHDATA4 announcing at least 2^32-5 bytes, on which it panics. (Ideal: never panics.)", "quantifier": "every byte string", "why_tests_cant": "panic-freedom over all malformed scripts", "anchors": ["script/OpPushdata.go:DecodeParts"]}
{"id": "C11", "title": "Appending to a script appends parts", "statement": "If a script decodes to parts ps, then after any sequence of AppendPushData, AppendPushDataString, AppendPushDataHexString, AppendPushDataArray, AppendPushDataStrings and AppendOpCode (of non-push opcodes) it decodes to ps followed by what each call adds: the data (an empty item as the part 00), each item of the array, or the single opcode byte, and nothing for a failing call; except that, exactly when a call pushed data of one of the overflow lengths of C07, decoding panics. An append fails exactly when the text is not hex or an item is longer than 2^32-1 bytes. A failing append leaves the script unchanged, and appends only add bytes at the end.", "quantifier": "every decodable script and every sequence of append operations", "why_tests_cant": "unbounded operation histories", "anchors": ["script/Script.go:AppendPushData", "script/Script.go:AppendPushDataArray", "script/Script.go:AppendOpCode", "script/Script.go:AppendPushDataStrings"]}
{"id": "C12", "title": "ASM round trip", "statement": "For a script that DecodeParts accepts, NewFromASM(ToASM(s)) = s exactly when s is not empty and all of its pushes are in shortest form and of at least two bytes; ToASM succeeds exactly when DecodeParts does. (Ideal: for every decodable script. Deviation: one-byte pushes may come back as opcodes, non-minimal pushes are shortened, empty pushes vanish, the empty script becomes OP_0.)", "quantifier": "every script", "why_tests_cant": "all opcode/push combinations of all lengths", "anchors": ["script/Script.go:NewFromASM", "script/Script.go:ToASM", "script/Opcodes.go:opCodeStrings", "script/Opcodes.go:opCodeValues"]}
{"id": "C13", "title": "Opcode name tables are consistent", "statement": "Every byte value has a name, looking a byte's name up in the string table gives the byte back, distinct bytes have distinct names, and no opcode name is a hex string.", "quantifier": "all 256 byte values and every table entry", "why_tests_cant": "two hand-written tables of 256+ entries that must agree entry by entry", "anchors": ["script/Opcodes.go:opCodeStrings", "script/Opcodes.go:opCodeValues"]}
{"id": "C14", "title": "P2PKH construction and recognition", "statement": "For every public key, NewP2PKHFromPubKeyBytes yields the 25-byte script 76 a9 14 <hash160> 88 ac; IsP2PKH holds of it; GetPublicKeyHash returns the hash160; IsP2PKH holds of exactly the scripts of that shape; NewP2PKHFromPubKeyHashStr of a hex string yields a P2PKH script exactly when the hex denotes 20 bytes.", "quantifier": "every public key byte string, every hex string, every script", "why_tests_cant": "iff over all scripts", "anchors": ["script/Script.go:NewP2PKHFromPubKeyBytes", "script/Script.go:NewP2PKHFromPubKeyHashStr", "script/Script.go:IsP2PKH", "script/Script.go:GetPublicKeyHash"]}
{"id": "C15", "title": "P2SH recognition and redeem-script output", "statement": "IsP2SH holds of exactly the scripts a9 14 <20 bytes> 87; the scriptPubKey of every redeem script is such a script with the hash160 of the redeem script.", "quantifier": "every script; every redeem script", "why_tests_cant": "iff over all scripts", "anchors": ["script/Script.go:IsP2SH", "script/RedeemScript.go:getScriptPubKey"]}
{"id": "C16", "title": "P2PK recognition", "statement": "IsP2PK holds of every script <push of a public key> OP_CHECKSIG, where a public key is 33 bytes beginning 02/03 or 65 bytes beginning 04/06/07, and otherwise exactly of the scripts <push of a public key> <push of data beginning with the byte ac>. (Ideal: only the former.)", "quantifier": "every script", "why_tests_cant": "iff over all scripts", "anchors": ["script/Script.go:IsP2PK"]}
{"id": "C17", "title": "Bare multisig recognition", "statement": "IsMultisigOut holds of exactly the scripts of at least three tokens whose first and last-but-one payloads begin with a small-integer opcode byte, whose last payload begins with the OP_CHECKMULTISIG byte and whose other payloads are non-empty; on scripts whose first and last two tokens are opcodes and whose other tokens are pushes this is <small int> <non-empty data>* <small int> OP_CHECKMULTISIG. (Ideal: only the latter shape; the deviation is that pushes and opcodes are not told apart.)", "quantifier": "every script", "why_tests_cant": "iff over all scripts", "anchors": ["script/Script.go:IsMultisigOut", "script/Script.go:isSmallIntOp"]}
{"id": "C18", "title": "Data output recognition", "statement": "IsData holds of exactly the scripts that begin with OP_RETURN or with OP_FALSE OP_RETURN.", "quantifier": "every script, including empty and one-byte scripts", "why_tests_cant": "iff over all scripts", "anchors": ["script/Script.go:IsData"]}
{"id": "C19", "title": "Script classes are mutually exclusive but for one overlap", "statement": "No script satisfies two of IsP2PKH, IsP2SH, IsP2PK, IsMultisigOut, IsData, with one exact exception: IsData and IsMultisigOut both hold of the scripts OP_FALSE OP_RETURN <non-empty token>* <token beginning with a small integer> <token beginning with the OP_CHECKMULTISIG byte>. (Ideal: no exception.)", "quantifier": "every script, every pair of predicates", "why_tests_cant": "negative statement over all scripts", "anchors": ["script/Script.go:IsP2PKH", "script/Script.go:IsP2SH", "script/Script.go:IsP2PK", "script/Script.go:IsMultisigOut", "script/Script.go:IsData"]}
{"id": "C20", "title": "Panic domains of the script predicates and GetPublicKeyHash", "statement": "IsP2PKH and IsP2SH return normally on every script. The exact scripts on which the others panic: IsData on the empty script and on 00; ToASM where DecodeParts does (C10); IsP2PK and IsMultisigOut where DecodeParts does and on scripts with an empty push in the positions they inspect; GetPublicKeyHash on 76 and on 76 a9 followed by nothing or by something DecodeParts panics on. (Ideal: none.)", "quantifier": "every script", "why_tests_cant": "panic-freedom over all malformed scripts", "anchors": ["script/Script.go"]}
{"id": "C21", "title": "Output constructors build the documented scripts", "statement": "NewOpReturn/NewOpReturnParts give a zero-satoshi output whose script is OP_FALSE OP_RETURN followed by the pushes of the data, recognised by IsData and decoding back to the data (an empty item as 00; decoding panics exactly when an item has an overflow length of C07); NewHashPuzzle gives HASH160 push(hash160 secret) EQUALVERIFY followed by the P2PKH script of the key hash; each fails exactly on invalid hex or oversized data.", "quantifier": "every data list, secret, hex string and amount", "why_tests_cant": "unbounded data", "anchors": ["transaction/output/Output.go:NewOpReturn", "transaction/output/Output.go:NewOpReturnParts", "transaction/output/Output.go:NewHashPuzzle"]}
{"id": "C22", "title": "Address string round trip", "statement": "For every 20-byte hash and either network, the address made by NewFromPublicKeyHash is accepted by NewFromString, which returns the same address string and the same public key hash; different hashes or networks give different address strings.", "quantifier": "every 20-byte hash, both networks", "why_tests_cant": "2^161 cases; base58 big-number arithmetic with leading zeros", "anchors": ["script/address/Address.go:NewFromString", "script/address/Address.go:NewFromPublicKeyHash", "script/address/Address.go:Base58EncodeMissingChecksum"]}
{"id": "C23", "title": "Generated addresses validate", "statement": "ValidateAddress returns true for the address produced by NewFromPublicKeyHash, NewFromPublicKeyString or NewFromPublicKey for every key and either network.", "quantifier": "every key (hash), both networks", "why_tests_cant": "two independent base58 implementations must agree on every value", "anchors": ["script/address/AddressValidation.go:ValidateAddress", "script/address/AddressValidation.go:validA58", "script/address/Address.go"]}
{"id": "C24", "title": "ValidateAddress accepts exactly the well-formed addresses", "statement": "ValidateAddress accepts a (non BIP276) string exactly when it is base58, its value fits 25 bytes, the version byte is 0x00 or 0x6f and the last four bytes are the double-SHA256 checksum of the first 21; it never panics on such strings; and an accepted string is the canonical base58 encoding of those 25 bytes up to the number of leading '1' characters. (Ideal: the canonical encoding. Deviation: leading '1's may be added or removed freely.)", "quantifier": "every byte string", "why_tests_cant": "iff over all strings, big-integer overflow in a hand-written loop", "anchors": ["script/address/AddressValidation.go:set58", "script/address/AddressValidation.go:validA58"]}
{"id": "C25", "title": "What NewFromString accepts, against ValidateAddress", "statement": "NewFromString (hence PayTo, NewP2PKHFromAddress and GetCoinbaseParts) never panics and accepts exactly the canonical base58 encodings of 25 bytes whose first byte is 0x00 or 0x6f, returning bytes 1..20 as the key hash; on canonical strings that ValidateAddress accepts both agree. (Ideal: it refuses what ValidateAddress refuses. Deviation: the checksum is never verified, so every address with a wrong checksum is accepted and paid to.)", "quantifier": "every string", "why_tests_cant": "agreement of two decoders over all strings", "anchors": ["script/address/Address.go:addressToPubKeyHashStr", "script/address/AddressValidation.go:ValidateAddress"]}
{"id": "C26", "title": "Address first character shows the network", "statement": "Every mainnet address produced from a 20-byte hash begins with '1' and every testnet address begins with 'm' or 'n'.", "quantifier": "every 20-byte hash", "why_tests_cant": "documented claim over 2^160 hashes and all checksums", "anchors": ["script/address/Address.go:NewFromPublicKeyHash", "script/address/Address.go:NewFromPublicKey"]}
{"id": "C27", "title": "Address and key constructors agree", "statement": "For every public key, the script built from the key, the script built from its key hash and the script built by NewP2PKHFromAddress from its mainnet or testnet address are the same; PayTo to that address adds exactly that locking script with the given satoshis.", "quantifier": "every public key, both networks, every amount", "why_tests_cant": "all keys", "anchors": ["script/Script.go:NewP2PKHFromAddress", "script/Script.go:NewP2PKHFromPubKeyStr", "script/address/Address.go:NewFromPublicKeyString", "transaction/Transaction.go:PayTo"]}
{"id": "C28", "title": "BIP276 round trip", "statement": "For every prefix, network and version in 1..255 and data, DecodeBIP276(EncodeBIP276(prefix, network, version, data)) returns that prefix, version, network and data without error exactly when network and version are the same number in 1..9, the prefix is not empty and has no newline and the data is not empty. (Ideal: always.)", "quantifier": "every prefix, network, version and data", "why_tests_cant": "all field combinations including network different from version and two-digit hex values", "anchors": ["script/address/BIP276.go:EncodeBIP276", "script/address/BIP276.go:DecodeBIP276"]}
{"id": "C29", "title": "BIP276 decoding: soundness and panic domain", "statement": "When DecodeBIP276 succeeds, the text has the documented shape and its checksum is the first four bytes of the double SHA256 of the payload re-encoded with the returned fields; it panics exactly on the texts that do not have the documented shape, also when called through ValidateAddress. (Ideal: an error instead of a panic.)", "quantifier": "every text", "why_tests_cant": "panic-freedom and soundness over all strings", "anchors": ["script/address/BIP276.go:DecodeBIP276", "script/address/AddressValidation.go:ValidateAddress"]}
{"id": "C30", "title": "Multisig redeem script does not depend on key order", "statement": "GetRedeemScript, GetRedeemScriptHash, GetAddress are the same for every order in which the same public keys were added, and calling them repeatedly gives the same answer.", "quantifier": "every multiset of keys, every insertion order, any number of calls", "why_tests_cant": "n! insertion orders", "anchors": ["script/RedeemScript.go:GetRedeemScript", "script/RedeemScript.go:GetAddress", "utils/ByteManipulation.go:SortByteArrays"]}
{"id": "C31", "title": "Multisig redeem script structure", "statement": "NewRedeemScript(m) succeeds exactly for 2 <= m <= 16; the redeem script of n keys (1 <= n <= 16, keys of length 1..75) decodes to m, the n sorted keys, n, OP_CHECKMULTISIG, and IsMultisigOut holds of it.", "quantifier": "every m, every list of keys", "why_tests_cant": "all key lists", "anchors": ["script/RedeemScript.go:NewRedeemScript", "script/RedeemScript.go:GetRedeemScript"]}
{"id": "C32", "title": "Electrum redeem scripts", "statement": "NewRedeemScriptFromElectrum succeeds exactly on hex scripts whose first part begins with 0x50+m, 2 <= m <= 15, followed by n Electrum keys (ff, extended key, path) that can be derived, a part beginning with 0x50+n and a part beginning with OP_CHECKMULTISIG, and then returns exactly m and the n derived public keys in script order. It panics exactly on malformed scripts of listed shapes: push data on which DecodeParts panics, an empty first part, too few parts, an empty part among the last two, or a first underivable key that is empty or too short; it returns an error on all others. (Ideal: an error on every malformed script.)", "quantifier": "every hex string, every key-derivation function", "why_tests_cant": "all malformed scripts", "anchors": ["script/RedeemScript.go:NewRedeemScriptFromElectrum"]}
{"id": "C33", "title": "Transaction parse of serialisation", "statement": "For every transaction whose input txids are 64 hex digits, NewFromBytes(tx.ToBytes()) succeeds and returns the same version, inputs (txid in lower case, index, unlocking script, sequence), outputs and locktime; NewFromString(tx.ToString()) likewise.", "quantifier": "every transaction: any number of inputs and outputs, any scripts", "why_tests_cant": "unbounded structure sizes, varint boundaries at every count and length", "anchors": ["transaction/Transaction.go:NewFromBytes", "transaction/Transaction.go:ToBytes", "transaction/Transaction.go:NewFromString", "transaction/Transaction.go:ToString"]}
{"id": "C34", "title": "Transaction serialisation of parse", "statement": "Whenever NewFromBytes(b) succeeds with tx, tx.ToBytes() = b exactly when every count and script length in b is minimally encoded; otherwise ToBytes() is strictly shorter. In every case re-parsing tx.ToBytes() gives tx again.", "quantifier": "every byte string the parser accepts", "why_tests_cant": "all accepted byte strings including non-canonical varints", "anchors": ["transaction/Transaction.go:NewFromBytes", "transaction/Transaction.go:ToBytes"]}
{"id": "C35", "title": "The transaction parser consumes its whole input and reads nothing else", "statement": "If NewFromBytes accepts b then b is exactly version, counted inputs, counted outputs and a 4-byte locktime with nothing left over; no proper prefix or extension of b is accepted as the same transaction; and the accepted result does not depend on memory beyond the slice.", "quantifier": "every byte string and every spare-capacity content", "why_tests_cant": "all inputs, all hidden memory contents", "anchors": ["transaction/Transaction.go:NewFromBytes", "transaction/input/Input.go:NewFromBytes", "transaction/output/Output.go:NewFromBytes"]}
{"id": "C36", "title": "Panic domain of the transaction parser", "statement": "The exact byte strings on which the parsers panic: input.NewFromBytes (at least 36 bytes) and output.NewFromBytes (at least 8 bytes) when the script length behind the fixed fields cannot be read or announces an end offset of 2^63 or more within the modulus; transaction.NewFromBytes, for strings of at least 10 bytes, when the input count or output count is cut off, or after some complete inputs (outputs), fewer than announced, the next one makes the input (output) parser panic. On every other byte string they return a value or an error. (Ideal: never panic.)", "quantifier": "every byte string", "why_tests_cant": "panic-freedom over all malformed inputs, including 64-bit length overflow", "anchors": ["transaction/Transaction.go:NewFromBytes", "transaction/input/Input.go:NewFromBytes", "transaction/output/Output.go:NewFromBytes", "utils/VarInt.go:DecodeVarInt"]}
{"id": "C37", "title": "Input and output codecs", "statement": "input.NewFromBytes(in.ToBytes(false) ++ rest) returns in and the number of bytes in.ToBytes(false) occupies; output.NewFromBytes(out.ToBytes() ++ rest) likewise; GetBytesForSigHash equals ToBytes for outputs; ToBytes(true) is ToBytes(false) of the input with an empty script.", "quantifier": "every input/output and every tail", "why_tests_cant": "unbounded scripts and tails", "anchors": ["transaction/input/Input.go", "transaction/output/Output.go"]}
{"id": "C38", "title": "Transaction id commits to the serialised transaction", "statement": "GetTxID is the reversed hex double-SHA256 of ToBytes; it is 64 lower-case hex digits; it ignores PreviousTxScript and PreviousTxSatoshis; and two well-formed transactions with the same id have the same version, inputs, outputs and locktime unless their serialisations are a SHA256d collision.", "quantifier": "every pair of transactions, every hash function", "why_tests_cant": "all pairs of transactions", "anchors": ["transaction/Transaction.go:GetTxID"]}
{"id": "C39", "title": "What IsCoinbase recognises", "statement": "IsCoinbase holds exactly when the transaction has one input with zero txid whose output index or sequence number is 0xffffffff; so it holds of every transaction with a single null-outpoint input, and of no others unless that input is final. (Ideal: exactly the single null-outpoint input.)", "quantifier": "every transaction", "why_tests_cant": "iff over all transactions", "anchors": ["transaction/Transaction.go:IsCoinbase"]}
{"id": "C40", "title": "Total output satoshis", "statement": "GetTotalOutputSatoshis equals the sum of the outputs' satoshis whenever that sum is below 2^64 (and its residue mod 2^64 otherwise), and does not depend on output order.", "quantifier": "every list of outputs", "why_tests_cant": "unbounded lists; wrap-around", "anchors": ["transaction/Transaction.go:GetTotalOutputSatoshis"]}
{"id": "C41", "title": "Transaction building histories", "statement": "After any sequence of AddInput, From, AddOutput, PayTo calls on New(), the inputs and outputs are exactly the successfully added ones in call order, InputCount/OutputCount are their numbers, version 1 and locktime 0 are kept, and a failing call changes nothing.", "quantifier": "every finite sequence of builder calls", "why_tests_cant": "unbounded histories", "anchors": ["transaction/Transaction.go:AddInput", "transaction/Transaction.go:From", "transaction/Transaction.go:AddOutput", "transaction/Transaction.go:PayTo"]}
{"id": "C42", "title": "Serialisation with cleared inputs", "statement": "ToBytesWithClearedInputs(i, s) without a script is ToBytes; for an index that no input has it is the serialisation with every unlocking script emptied; for an index in range it is that serialisation with input i replaced by the bare length-prefixed script s, that is, 40 bytes (outpoint and sequence number) shorter than the serialisation of the transaction in which input i carries s. (Ideal: the latter serialisation; the code never returns it for an index in range.)", "quantifier": "every transaction, index and script", "why_tests_cant": "all transactions", "anchors": ["transaction/Transaction.go:ToBytesWithClearedInputs", "transaction/Transaction.go:toBytesHelper"]}
{"id": "C43", "title": "Signature hash follows the replay-protected digest algorithm", "statement": "For every transaction, input index and flag byte, GetInputSignatureHash returns the byte-reversed double SHA256 of the preimage defined by the published algorithm (version, hashPrevouts, hashSequence, outpoint, scriptCode, value, sequence, hashOutputs, locktime, flag) with the documented zeroing for ANYONECANPAY, NONE, SINGLE and out-of-range SINGLE.", "quantifier": "every transaction, index and all 256 flag values", "why_tests_cant": "the repository's tests only exercise one flag", "anchors": ["transaction/SignatureHash.go:GetInputSignatureHash", "transaction/SignatureHash.go:getPrevoutHash", "transaction/SignatureHash.go:getSequenceHash", "transaction/SignatureHash.go:getOutputsHash"]}
{"id": "C44", "title": "Signature hash ignores what the flag excludes", "statement": "The signature hash of input i never depends on any unlocking script nor on other inputs' previous scripts and amounts; with ANYONECANPAY it does not depend on the other inputs at all; with NONE not on the outputs; with SINGLE only on output i; with NONE or SINGLE not on other inputs' sequence numbers.", "quantifier": "every pair of transactions that agree on the committed parts, every index and flag", "why_tests_cant": "non-interference over all pairs of transactions", "anchors": ["transaction/SignatureHash.go"]}
{"id": "C45", "title": "Signature hash binds what the flag includes", "statement": "If two transactions have the same signature hash for given index and flag then, unless an explicit SHA256d collision occurs among the strings hashed, they agree on version, locktime, the spent outpoint, its script, its amount, its sequence, the flag and, as the flag says, on all outpoints, all sequences and the outputs committed to. Ids that are not 64 digits long are not refused, and with them two transactions that spend different outputs under different scripts can have one and the same preimage (deviation).", "quantifier": "every pair of transactions with well-formed txids, every index and flag, every hash function", "why_tests_cant": "all pairs of transactions", "anchors": ["transaction/SignatureHash.go"]}
{"id": "C46", "title": "Signature hash error and panic domain", "statement": "GetInputSignatureHash fails with an error exactly when the input exists and its previous txid or previous script is missing, panics exactly when the index has no input (or, in a transaction with more than 2^31 inputs and outputs, when the flag is SINGLE and the index is at least 2^31 and has an output), and otherwise succeeds with 32 bytes. (Ideal: an error for an index without an input.)", "quantifier": "every transaction, index and flag", "why_tests_cant": "all indices", "anchors": ["transaction/SignatureHash.go:GetInputSignatureHash"]}
{"id": "C47", "title": "Signing one input", "statement": "A successful InternalSigner.Sign(i, tx) changes nothing but input i's unlocking script, which becomes push(signature || flag) push(public key) for a signature over the double SHA256 of input i's preimage; flag 0 means ALL|FORKID; the signature verifies under the key for the signature hash of the resulting transaction; on error nothing changes.", "quantifier": "every transaction, index, flag, and every signature scheme that verifies its own signatures", "why_tests_cant": "all transactions and keys", "anchors": ["transaction/signature/InternalSigner.go:Sign", "transaction/Transaction.go:Sign", "script/UnlockingScript.go"]}
{"id": "C48", "title": "Signing all matching inputs", "statement": "When the previous scripts can be read, SignAuto signs exactly the inputs whose previous script begins OP_DUP OP_HASH160 <the key's hash> and have a txid (all P2PKH scripts to the key, but also scripts that only begin so), leaves all others and everything else untouched, gives each the same unlocking script as signing it alone in the original transaction, does not depend on the signing order, and signing again changes nothing for a deterministic signer. It panics exactly when some previous script makes GetPublicKeyHash panic (C20). (Ideal: only P2PKH scripts, and never a panic.)", "quantifier": "every transaction and key", "why_tests_cant": "any number of inputs, any mix of scripts", "anchors": ["transaction/signature/InternalSigner.go:SignAuto", "transaction/Transaction.go:SignAuto"]}
{"id": "C49", "title": "Signatures on other inputs stay valid", "statement": "Signing or replacing the unlocking script of any set of inputs, in any order, does not change the signature hash of any input, nor anything but unlocking scripts, so earlier signatures remain valid; ApplyUnlockingScript sets the script of an existing input and panics at an index without input. (Ideal: an error there.)", "quantifier": "every transaction, every sequence of signing operations", "why_tests_cant": "unbounded histories", "anchors": ["transaction/Transaction.go:ApplyUnlockingScript", "transaction/SignatureHash.go", "transaction/signature/InternalSigner.go"]}
{"id": "C50", "title": "Unlocking script structure", "statement": "NewP2PKHUnlockingScript(pub, sig, flag) decodes to exactly two parts, sig||flag and pub, for every DER-size signature and key.", "quantifier": "every signature, key and flag", "why_tests_cant": "all byte strings", "anchors": ["script/UnlockingScript.go:NewP2PKHUnlockingScript"]}
{"id": "C51", "title": "Coinbase Merkle branches give the Merkle root", "statement": "For every non-empty list of txids, BuildMerkleRootFromCoinbase(internal-order hash of the first, GetMerkleBranches(txids)) is the Bitcoin Merkle root of the list (pairwise double SHA256, last element duplicated on odd levels).", "quantifier": "every list length and every list of txids", "why_tests_cant": "unbounded tree sizes, odd levels", "anchors": ["block/GetMerkleBranches.go:GetMerkleBranches", "block/BuildMerkleRootFromCoinbase.go:BuildMerkleRootFromCoinbase"]}
{"id": "C52", "title": "Coinbase Merkle branches do not depend on the coinbase", "statement": "GetMerkleBranches(txids) is unchanged when the first txid is replaced by any other string, has ceil(log2 n) entries, and is empty for fewer than two txids.", "quantifier": "every list of txids and every replacement", "why_tests_cant": "all lists", "anchors": ["block/GetMerkleBranches.go:GetMerkleBranches"]}
{"id": "C53", "title": "Merkle proofs are complete for every position", "statement": "For every list of txids and every position, MerkleRootFromBranches with the txid, the position and the sibling path returns the Merkle root in display order.", "quantifier": "every list and every position", "why_tests_cant": "all tree shapes and positions", "anchors": ["block/GetMerkleBranches.go:MerkleRootFromBranches"]}
{"id": "C54", "title": "Merkle proofs are sound", "statement": "For a fixed root, position and number of branches, MerkleRootFromBranches returns that root for at most one txid and one branch list, unless an explicit SHA256d collision occurs among the hashed nodes.", "quantifier": "every pair of proofs of equal length", "why_tests_cant": "all proofs", "anchors": ["block/GetMerkleBranches.go:MerkleRootFromBranches"]}
{"id": "C55", "title": "Merkle proof index range", "statement": "MerkleRootFromBranches reports an error exactly when the index is at least 2^len(branches) or the txid or a branch is not valid hex, and never panics; a negative index is accepted and treated as its residue modulo 2^len(branches). (Ideal: an error for negative indices.)", "quantifier": "every index (including negative) and every branch list", "why_tests_cant": "all indices", "anchors": ["block/GetMerkleBranches.go:MerkleRootFromBranches"]}
{"id": "C56", "title": "Compact target expansion", "statement": "ExpandTargetFromAsInt(bits) is (-1)^s * floor(m * 256^(e-3)) for the compact fields e, s, m of the first four bytes; it reports an error exactly for strings that are not hex and panics exactly on hex strings below eight digits. ExpandTargetFrom returns the 64 hex digits of the magnitude whenever it is below 2^256, panics when it is not or when there are fewer than eight digits, and reports an error exactly for strings that are not hex. (Ideal: an error for negative or too large targets and short strings.)", "quantifier": "every bits string", "why_tests_cant": "all 2^32 compact values and all malformed strings", "anchors": ["block/Difficulty.go:ExpandTargetFrom", "block/Difficulty.go:ExpandTargetFromAsInt"]}
{"id": "C57", "title": "Difficulty from bits", "statement": "DifficultyFromBits(bits) is the float64 nearest to the genesis target divided by t, +Inf for t = 0, an error when t does not fit a float64, and a panic exactly when fewer than four bytes precede the first non-hex character; t is the low 24 bits times 256^(e-3) with exponents below 3 taken as 3, which is the expanded target of bits exactly when the sign bit is clear and e >= 3 (or the mantissa is zero); for such bits a larger target never gives a larger difficulty. (Ideal: t is always the expanded target, and invalid strings are errors.)", "quantifier": "every bits string", "why_tests_cant": "all compact values", "anchors": ["block/Difficulty.go:DifficultyFromBits", "block/Difficulty.go:toCompactSize", "block/Difficulty.go:targetToDifficulty"]}
{"id": "C58", "title": "Block header layout", "statement": "For a 32-byte previous hash (hex), 32-byte root and 4-byte time, bits, nonce, BuildBlockHeader returns 80 bytes from which every field can be read back at its fixed offset; two such headers are equal only if all fields are equal.", "quantifier": "every field value", "why_tests_cant": "all field values", "anchors": ["block/BuildBlockHeader.go:BuildBlockHeader"]}
{"id": "C59", "title": "Assembled coinbase is a valid coinbase transaction", "statement": "For every height below 2^24, value, text, valid wallet address, optional witness commitment and miner id, and extra nonces totalling 12 bytes, BuildCoinbase of GetCoinbaseParts is accepted by transaction.NewFromBytes with nothing left over; the result has version 1, locktime 0, one null-outpoint input (IsCoinbase), whose script starts with the pushed height and ends with the extra nonces, and outputs paying the value to the wallet, then the optional zero-value outputs.", "quantifier": "every height, value, text, address, commitment, miner id and extra nonces", "why_tests_cant": "all metadata combinations, text truncation boundary", "anchors": ["block/GetCoinbaseParts.go:GetCoinbaseParts", "block/GetCoinbaseParts.go:BuildCoinbase", "transaction/Transaction.go:NewFromBytes"]}
{"id": "C60", "title": "Coinbase script size bound", "statement": "The coinbase input script (height, text, extra nonce space) is at most 100 bytes for every text, its announced length is exactly the data plus 12 extra-nonce bytes, and texts up to 84 bytes are kept whole.", "quantifier": "every text", "why_tests_cant": "all text lengths", "anchors": ["block/GetCoinbaseParts.go:makeCoinbase1"]}
{"id": "C61", "title": "Encrypt/Decrypt round trip", "statement": "Decrypt(c, Encrypt(c, text)) returns text without error, for every block cipher c with 16-byte blocks, every random IV and every text.", "quantifier": "every text, cipher function and IV", "why_tests_cant": "all lengths (partial last block, base64 padding) and all IVs", "anchors": ["crypto/Encryption.go:Encrypt", "crypto/Encryption.go:Decrypt"]}
{"id": "C62", "title": "Decrypt: safety and effect on its argument", "statement": "Decrypt reports an error on ciphertexts shorter than 16 bytes and never panics. It overwrites the caller's ciphertext behind the first 16 bytes with the decrypted base64 text, and changes no other memory; so decrypting the same slice a second time gives another result. (Ideal: the argument is unchanged.)", "quantifier": "every ciphertext", "why_tests_cant": "side effect on caller memory, all inputs", "anchors": ["crypto/Encryption.go:Decrypt"]}
{"id": "C63", "title": "Hash composition and sizes", "statement": "Sha256d is Sha256 applied twice, Hash160 is Ripemd160 of Sha256; results are 32 and 20 bytes for every input.", "quantifier": "every byte string", "why_tests_cant": "all inputs", "anchors": ["crypto/Hash.go"]}
{"id": "C64", "title": "Appending to parsed scripts and independence", "statement": "The exact effect of appending to a script of a parsed transaction: if the new bytes do not fit into the parse buffer behind the script no other script changes; if they fit, earlier scripts keep their contents and of later scripts exactly those bytes are replaced that lie under the appended ones. Hence appends of at most nine bytes, appends to the last script, and any appends to scripts that were not made by parsing never change another script. (Ideal: no append changes another script.)", "quantifier": "every accepted byte string, every append", "why_tests_cant": "shared backing array; visible only for particular capacities", "anchors": ["transaction/output/Output.go:NewFromBytes", "transaction/input/Input.go:NewFromBytes", "script/Script.go:NewFromBytes", "script/Script.go:AppendPushData"]}
{"id": "C65", "title": "What Merkle, header and coinbase builders modify", "statement": "BuildBlockHeader and BuildCoinbase leave all memory reachable from their arguments unchanged. BuildMerkleRootFromCoinbase changes exactly the spare capacity directly behind its first argument, which receives the first branch when it fits; all slices that end at or before the end of that argument or lie in other arrays are unchanged. (Ideal: it changes nothing.)", "quantifier": "every slice argument: every length and capacity", "why_tests_cant": "depends on spare capacity of the argument", "anchors": ["block/BuildMerkleRootFromCoinbase.go", "block/BuildBlockHeader.go", "block/GetCoinbaseParts.go:BuildCoinbase"]}
{"id": "C66", "title": "Human-readable hash rate picks the right unit", "statement": "HumanHash scales every value of at least 1000 H/s and below 10^24 to a number in [1,1000] with the matching unit, and the scaling is monotone inside a unit.", "quantifier": "every finite float64 that is not negative", "why_tests_cant": "all magnitudes", "anchors": ["utils/HumanHash.go:HumanHash"]}
{"id": "C67", "title": "Merkle root determines the list of txids", "statement": "Two lists of equally many txids for which GetMerkleBranches and BuildMerkleRootFromCoinbase give the same root are the same list, unless an explicit SHA256d collision occurs among the hashed nodes; without the number of txids this is false: repeating the last txid of an odd list of at least three keeps the root.", "quantifier": "every two lists of txids of equal length", "why_tests_cant": "all list lengths and tree shapes", "anchors": ["block/GetMerkleBranches.go:GetMerkleBranches", "block/BuildMerkleRootFromCoinbase.go:BuildMerkleRootFromCoinbase"]}
{"id": "C68", "title": "Hash rate from difficulty", "statement": "DifficultyToHashrate(coin, diff, seconds) is, up to four float64 roundings, diff times 2^256 divided by the difficulty-one target (regtest's for tickers starting with R, bitcoin's otherwise) divided by seconds, for every non-empty ticker, every difficulty and every block time between a nanosecond and 10^300 seconds; it never decreases when the difficulty grows or the block time shrinks; it panics exactly on the empty ticker.", "quantifier": "every ticker, difficulty and positive block time", "why_tests_cant": "all magnitudes, rounding", "anchors": ["block/Difficulty.go:DifficultyToHashrate", "block/Difficulty.go:init"]}
{"id": "C69", "title": "A parsed transaction keeps referring to the caller's buffer", "statement": "After transaction.NewFromBytes(b), overwriting the bytes of b with b' of the same length changes the parsed transaction in exactly one way: every locking and unlocking script becomes the same range of b'; version, locktime, txids, indices, sequence numbers and satoshis stay as parsed. A caller that reuses its read buffer therefore corrupts earlier transactions.", "quantifier": "every accepted byte string and every overwriting of the same length", "why_tests_cant": "aliasing between the argument and the result; visible only when the buffer is reused", "anchors": ["transaction/Transaction.go:NewFromBytes", "transaction/input/Input.go:NewFromBytes", "transaction/output/Output.go:NewFromBytes", "script/Script.go:NewFromBytes"]}
{"id": "C70", "title": "Signed inputs are accepted by script evaluation", "statement": "After SignAuto with any number of keys, one after the other in any order, every input with a txid whose previous script is the P2PKH script of one of the keys is accepted by a Bitcoin script evaluator for that script and the previous amount (unlocking script: pushes only; locking script leaves true), provided the keys' signatures verify; nothing but unlocking scripts changes; and acceptance survives ToBytes followed by NewFromBytes, with the same txid.", "quantifier": "every transaction with readable previous scripts, every list of keys, every input, every signature flag", "why_tests_cant": "all transactions, key sets and orders; needs the semantics of the script evaluator", "anchors": ["transaction/signature/InternalSigner.go:SignAuto", "transaction/SignatureHash.go:GetInputSignatureHash", "script/UnlockingScript.go:NewP2PKHUnlockingScript", "transaction/Transaction.go:ToBytes"]}
{"id": "C71", "title": "Pay, then spend", "statement": "Paying any amount to the address of a key (either network) with PayTo, adding the new output to another transaction with From(GetTxID, position, GetLockingScriptHexString, amount) and signing with SignAuto always succeeds; the new input's outpoint is the double SHA256 of the paying transaction and the output's position, and script evaluation accepts it for that output.", "quantifier": "every paying transaction, spending transaction, key, network and amount", "why_tests_cant": "composition of address, script, txid, digest and signing code over all transactions", "anchors": ["transaction/Transaction.go:PayTo", "transaction/Transaction.go:From", "transaction/Transaction.go:GetTxID", "transaction/Transaction.go:SignAuto", "script/address/Address.go:NewFromPublicKey"]}
{"id": "C72", "title": "Redeem script addresses", "statement": "The address of a redeem script is the 34-character canonical base58 text of version 5, HASH160 of the script and checksum, beginning with '3'; redeem scripts with the same address are equal unless HASH160 collides on them. (The library refuses its own addresses: ValidateAddress, NewFromString, NewP2PKHFromAddress and PayTo return an error on every one of them.)", "quantifier": "every redeem script", "why_tests_cant": "all redeem scripts and hash values", "anchors": ["script/RedeemScript.go:GetAddress", "script/address/AddressValidation.go:ValidateAddress", "script/address/Address.go:NewFromString"]}
{"id": "C73", "title": "Scripts as hex text", "statement": "NewFromHexString accepts exactly the texts with an even number of hex digits of either case, never panics, and ToString gives the text back in lower case; NewFromHexString(ToString(s)) is s; a locking script handed over as hex arrives unchanged in From and NewFromUTXO.", "quantifier": "every text and every script", "why_tests_cant": "all texts", "anchors": ["script/Script.go:NewFromHexString", "script/Script.go:ToString", "transaction/output/Output.go:GetLockingScriptHexString", "transaction/Transaction.go:From", "transaction/input/Input.go:NewFromUTXO"]}
{"id": "C74", "title": "Text renderings of inputs and outputs", "statement": "Input.String panics exactly when the input has no unlocking script; otherwise it, like Output.String, is the documented lines with decimal index, lengths and value, hex sequence, and '&' and hex for the script, and equal texts mean equal contents. (The line prevTxHash does not show the txid but the hex of its characters, 128 digits.)", "quantifier": "every input and output", "why_tests_cant": "all field values; injectivity over all pairs", "anchors": ["transaction/input/Input.go:String", "transaction/output/Output.go:String"]}
{"id": "C75", "title": "From template to block header", "statement": "For a payable wallet, hex commitment and 12 bytes of extra nonce, the coinbase assembled from GetCoinbaseParts and BuildCoinbase parses to the coinbase transaction, and the 80-byte header built with GetMerkleBranches, BuildMerkleRootFromCoinbase and BuildBlockHeader carries the Merkle root of the double hashes of that coinbase and the template's transactions, whatever stood in first place of the template; two equal headers over equally many transactions have equal fields and equal transactions unless two different strings hashed for the two blocks collide.", "quantifier": "every template, wallet, text, extra nonce and list of transactions", "why_tests_cant": "composition of five functions over all list lengths", "anchors": ["block/GetCoinbaseParts.go", "block/GetMerkleBranches.go:GetMerkleBranches", "block/BuildMerkleRootFromCoinbase.go", "block/BuildBlockHeader.go", "transaction/Transaction.go:GetTxID"]}
{"id": "C76", "title": "Reading a transaction follows its pointers", "statement": "Whatever inputs, outputs, scripts or slices are shared between transactions or between positions of one transaction, every reading method (ToBytes, ToBytesWithClearedInputs, GetTxID, InputCount, OutputCount, IsCoinbase, GetTotalOutputSatoshis, GetInputSignatureHash) depends only on the contents found by following the pointers.", "quantifier": "every store of objects, every sharing pattern, every transaction in it", "why_tests_cant": "all sharing patterns of pointers", "anchors": ["transaction/Transaction.go", "transaction/SignatureHash.go", "transaction/input/Input.go:ToBytes", "transaction/output/Output.go:ToBytes"]}
{"id": "C77", "title": "Transactions built separately are independent", "statement": "In any history of New, NewFromBytes, From, PayTo, AddInput, AddOutput (of inputs and outputs made for the call), ApplyUnlockingScript, Sign and SignAuto on any number of transactions with any number of shared signers, each transaction always shows exactly what its own calls computed: a call on one leaves all others, the runtime's slice growth and the flag Sign stores into the signer are not visible, errors leave the transaction, and panics happen exactly where the value-level functions panic.", "quantifier": "every history of calls, every number of transactions and signers, every growth policy of append", "why_tests_cant": "unbounded histories, interleavings and allocation policies", "anchors": ["transaction/Transaction.go:New", "transaction/Transaction.go:NewFromBytes", "transaction/Transaction.go:From", "transaction/Transaction.go:PayTo", "transaction/Transaction.go:AddInput", "transaction/Transaction.go:AddOutput", "transaction/Transaction.go:Sign", "transaction/Transaction.go:SignAuto", "transaction/Transaction.go:ApplyUnlockingScript", "transaction/signature/InternalSigner.go"]}
{"id": "C78", "title": "Shared input objects are unlocked everywhere", "statement": "ApplyUnlockingScript and Sign set the unlocking script of the input object the position points to, and change nothing else: every transaction changes at exactly the positions that hold the same pointer. (So handing one *Input to two transactions, or twice to one, is not independent: signing it in one puts that signature, over the digest of the first, into the other.)", "quantifier": "every store, transaction, index and script, every sharing pattern", "why_tests_cant": "all sharing patterns of pointers", "anchors": ["transaction/Transaction.go:ApplyUnlockingScript", "transaction/Transaction.go:AddInput", "transaction/signature/InternalSigner.go:Sign"]}
{"id": "C79", "title": "Nil inputs, outputs and scripts", "statement": "ToBytes, ToBytesWithClearedInputs and GetTxID panic exactly when the transaction holds a nil input, a nil output or an output without script; IsCoinbase exactly when its only input is nil; GetTotalOutputSatoshis exactly when an output is nil; ApplyUnlockingScript panics exactly beyond the inputs and returns an error exactly on a nil entry; SignAuto panics whenever any input is nil; GetInputSignatureHash panics on exactly the nil pointers the flag makes it follow.", "quantifier": "every store without dangling pointers, every transaction, index and flag", "why_tests_cant": "all placements of nil pointers", "anchors": ["transaction/Transaction.go", "transaction/SignatureHash.go", "transaction/signature/InternalSigner.go:SignAuto"]}
{"id": "C80", "title": "Signing through the Signer interface", "statement": "Transaction.Sign and SignAuto with any implementation of Signer pass errors on without assigning the transaction, panic on a nil result, and otherwise make the transaction show what the returned one shows, leaving every other transaction as the signer left it. An InternalSigner call with a zero SigHashFlag leaves ALL|FORKID stored in the signer, even when it fails.", "quantifier": "every Signer implementation with arbitrary effects, every store and transaction", "why_tests_cant": "arbitrary implementations of an interface", "anchors": ["transaction/Transaction.go:Sign", "transaction/Transaction.go:SignAuto", "transaction/Signer.go", "transaction/signature/InternalSigner.go"]}
{"id": "C81", "title": "Copied transactions share their input and output arrays", "statement": "After *b = *a (which Sign and SignAuto perform when the signer returns another transaction), adding an input or output to b and then one to a leaves a's new entry in b exactly when the shared array has room left, and is independent otherwise. (The ideal, that a signed transaction is independent of the object the signer returned, fails.)", "quantifier": "every store, pair of transactions with equal slices, growth policy and pair of new entries", "why_tests_cant": "depends on the capacity the runtime gave to the array", "anchors": ["transaction/Transaction.go:Sign", "transaction/Transaction.go:SignAuto", "transaction/Transaction.go:AddInput", "transaction/Transaction.go:AddOutput"]}
{"id": "C82", "title": "Decoded parts are views of the script", "statement": "DecodeParts returns the same parts and outcome whatever memory the script lies in and changes no memory that existed before. The part of a push is a view of the script: at any later time it reads as the bytes then at that place of the script, writing through it rewrites exactly that push, and appending to it overwrites the bytes after the push as far as the memory behind the script reaches. The part of an opcode is independent. The hash returned by GetPublicKeyHash lies in the script, too. (The ideal, that decoded parts are the caller's own, fails.)", "quantifier": "every memory, script, position of a token, written or appended bytes and allocation policy", "why_tests_cant": "aliasing and later writes in every memory layout", "anchors": ["script/OpPushdata.go:DecodeParts", "script/Script.go:GetPublicKeyHash"]}
{"id": "C83", "title": "Who can spend a P2PKH output", "statement": "A P2PKH script as the library builds it is satisfied, under script evaluation, by exactly those inputs whose unlocking script pushes, last, a signature with a flag that nodes accept and a public key with the named hash, such that the signature verifies for the key and the digest of that input. A signer whose SigHashFlag is not accepted by nodes (FORKID missing) still signs without error, and the input can then not spend any P2PKH output.", "quantifier": "every hash, amount, transaction, input index, unlocking script, signature scheme and signer", "why_tests_cant": "all unlocking scripts and signature schemes", "anchors": ["script/Script.go:NewP2PKHFromPubKeyHashStr", "transaction/output/Output.go:NewP2PkhFromPubKeyHash", "transaction/signature/InternalSigner.go:Sign"]}
{"id": "C84", "title": "Who can spend a hash puzzle", "statement": "An output made by NewHashPuzzle is spendable by exactly those inputs whose unlocking script pushes, last, a signature with an accepted flag, a public key with the given hash that verifies it, and a string with the same HASH160 as the secret.", "quantifier": "every secret, hash, amount, transaction, unlocking script and signature scheme", "why_tests_cant": "all unlocking scripts and signature schemes", "anchors": ["transaction/output/Output.go:NewHashPuzzle"]}
{"id": "C85", "title": "Data outputs are unspendable", "statement": "No input, with any unlocking script and signatures, can spend an output made by NewOpReturn or NewOpReturnParts. (IsData recognises scripts with a bare OP_RETURN as well, and those anyone can spend.)", "quantifier": "every list of data parts, every transaction, input and signature scheme; every bare OP_RETURN script", "why_tests_cant": "all unlocking scripts", "anchors": ["transaction/output/Output.go:NewOpReturn", "transaction/output/Output.go:NewOpReturnParts", "script/Script.go:IsData"]}
{"id": "C86", "title": "Who can spend a multisig redeem script", "statement": "With 1 to 16 signatures required and 1 to 16 keys of 1 to 75 bytes, the script of GetRedeemScript is satisfied by exactly those inputs that push one ignored item and then the required number of signatures with accepted flags, by different keys in the sorted order; an output paying to GetRedeemScriptHash is spent by pushing the redeem script after such items, and otherwise only with another script of the same hash. When more signatures are required than keys were added, or no key was added, the script is built all the same and nobody can spend it.", "quantifier": "every number of signatures and list of keys in range, every transaction, input, unlocking script and signature scheme", "why_tests_cant": "all unlocking scripts, key lists and signature schemes", "anchors": ["script/RedeemScript.go:GetRedeemScript", "script/RedeemScript.go:GetRedeemScriptHash", "script/RedeemScript.go:AddPublicKey"]}
{"id": "C87", "title": "Goroutines signing one transaction", "statement": "When goroutines sign inputs of one shared transaction at the same time (InternalSigner.Sign and SignAuto, Transaction.Sign and SignAuto, with shared or separate signers), then at every moment the transaction differs from the initial one only in unlocking scripts, each being the initial one or one that some of the calls gives that input when made alone on the initial transaction; signers change only by a zero flag becoming ALL|FORKID. The program panics only if one of the calls panics when made alone, and then does so in every schedule that lets this call run; otherwise all return after a bounded number of their own steps. Once all have returned, every input some call signs has the script of the call that wrote it last, every other input is unchanged, and each call got the error it gets alone. If no two calls give one input different scripts, the result is that of the calls made one after the other in any order.", "quantifier": "every schedule of any number of goroutines, every transaction, set of signers and assignment of signers to calls", "why_tests_cant": "all interleavings", "anchors": ["transaction/signature/InternalSigner.go:Sign", "transaction/signature/InternalSigner.go:SignAuto", "transaction/Transaction.go:Sign", "transaction/Transaction.go:SignAuto", "transaction/Transaction.go:ApplyUnlockingScript"]}
{"id": "C88", "title": "Data races of concurrent signing", "statement": "Goroutines that sign one transaction have a data race (conflicting unsynchronised accesses) if and only if two of them use one signer with an unset flag, or two give the same input a script, or there are two and one goes through the transaction's own Sign or SignAuto and succeeds: without such a pair no schedule has a race at any moment, with one every schedule in which all return has one. (So signing different inputs with different signers through Transaction.Sign races, although through InternalSigner.Sign it does not.)", "quantifier": "every schedule of any number of goroutines, every transaction and set of signers", "why_tests_cant": "the race detector sees only the schedules that happen", "anchors": ["transaction/signature/InternalSigner.go:Sign", "transaction/signature/InternalSigner.go:SignAuto", "transaction/Transaction.go:Sign", "transaction/Transaction.go:SignAuto"]}
{"id": "C89", "title": "Concurrent Sign calls are linearizable", "statement": "However goroutines calling Sign on one transaction interleave, the transaction they leave is the one their calls leave when made one after the other in some order. (SignAuto is not: two goroutines with one key and different flags can leave a mixture of signatures that no order of the calls leaves.)", "quantifier": "every schedule of any number of goroutines, every transaction and set of signers", "why_tests_cant": "all interleavings", "anchors": ["transaction/signature/InternalSigner.go:Sign", "transaction/signature/InternalSigner.go:SignAuto"]}
{"id": "C90", "title": "Human-readable hash rates of negative values, infinities and NaN", "statement": "HumanHash never panics. NaN prints as \"NaN H/s\", plus infinity as \"+Inf ZH/s\", minus infinity as \"-Inf H/s\"; a negative number of any size prints unscaled, as a minus sign and the magnitude rounded to hundredths with the unit H/s (negative zero and tiny negative values as \"-0.00 H/s\"). So the output is a well-formed hash rate exactly for finite values of positive sign, and for no value of at least 1000 is the output for its opposite the output with a minus sign.", "quantifier": "every float64", "why_tests_cant": "all bit patterns of a float64", "anchors": ["utils/HumanHash.go:HumanHash"]}
{"id": "C91", "title": "Hash rate for every block time", "statement": "DifficultyToHashrate never panics for a non-empty ticker, whatever the block time: NaN gives NaN; a zero block time gives an infinity with the sign of the zero (NaN for difficulty zero); an infinite block time gives a zero of its sign; for every other block time, positive, negative or subnormal, the result has the sign of the block time and its magnitude is the float64 nearest (ties to even) to the quotient of the rounded number of hashes and the block time, or an infinity if that quotient is at least 2^1024 - 2^970.", "quantifier": "every ticker, difficulty and float64 block time", "why_tests_cant": "all bit patterns of a float64", "anchors": ["block/Difficulty.go:DifficultyToHashrate"]}
{"id": "C92", "title": "Goroutines sharing a redeem script", "statement": "GetRedeemScript (and so GetAddress and GetRedeemScriptHash) sorts the keys of its receiver in place. If one call has returned before the others begin, or the keys are in order, then however the other calls interleave nothing panics, the keys stay as they are and every call returns the redeem script. In general, whatever the schedule, the receiver keeps its number of keys and shows only keys that were added, and every script returned consists of that many of them; with Go's insertion sort (which stays inside of the array whatever Less answers) no call panics and each returns after at most 3k\u00b2+k+2 steps of its own for k keys, however the others interfere. But not all of them: two concurrent first calls on two keys out of order can both return a script with the smaller key twice, and leave the object without the larger key for good (violated for every pair of different keys). Any two calls are a data race.", "quantifier": "every schedule of any number of goroutines, every list of keys, every sorting algorithm working through Less and Swap", "why_tests_cant": "all interleavings; Go's sort.Sort is free to choose its algorithm", "anchors": ["script/RedeemScript.go:GetRedeemScript", "script/RedeemScript.go:GetAddress", "utils/ByteManipulation.go:SortByteArrays", "utils/ByteManipulation.go:Less", "utils/ByteManipulation.go:Swap"]}
{"id": "C93", "title": "Copies of a redeem script", "statement": "After any history of NewRedeemScript, AddPublicKey and GetRedeemScript calls on any number of redeem scripts, in any order, each of them is what its own calls make of it alone. If structs are also copied by assignment, each still has the signature count and number of keys its own calls give it, and nothing else panics, but not its own keys (violated): asking a copy for its script reorders the original; when the key array has room, a key added to the original and then one to the copy leaves both with the second and neither with the first, and a key added to a copy which is then asked for its script becomes a key of the original in place of its largest. Without room the copy is independent from its first new key on.", "quantifier": "every history of calls and copies, every growth policy of append, every key derivation", "why_tests_cant": "all histories", "anchors": ["script/RedeemScript.go:NewRedeemScript", "script/RedeemScript.go:AddPublicKey", "script/RedeemScript.go:GetRedeemScript", "utils/ByteManipulation.go:SortByteArrays"]}
{"id": "C94", "title": "What EncodeBIP276 writes and refuses", "statement": "For a network and version from 1 to 255, EncodeBIP276 writes the prefix, a colon, network and version as two hex digits each, the data in hex and the first four bytes of the double SHA256 of all this in hex, so that different arguments give different texts. It returns ERROR exactly when the network or the version is zero or above 255. A negative network or version is not refused (violated): a text with a minus sign is written, on which DecodeBIP276 panics.", "quantifier": "every prefix, network, version, data and hash function", "why_tests_cant": "all integers and texts", "anchors": ["script/address/BIP276.go:EncodeBIP276", "script/address/BIP276.go:createBIP276", "script/address/BIP276.go:DecodeBIP276"]}
{"id": "C95", "title": "Assembly text exactly", "statement": "ToASM of a script that decodes writes one word per item, with one space between them: the opcode's name for an item of one byte, hex for any other; items without bytes leave no trace at the two ends and a double space elsewhere. For a script that does not decode it returns the decoding error, and panics exactly where decoding panics. NewFromASM of any text is determined word by word: it succeeds exactly if every word is an opcode name or the hex of data that can be pushed, and then the script is what the words stand for one after the other (an empty word is OP_0); otherwise it returns an error, and it never panics. A text made of the names of opcodes (other than the push opcodes) and hex of two bytes or more, of a length DecodeParts can read, is read and written back unchanged.", "quantifier": "every byte string and every text", "why_tests_cant": "all scripts and texts", "anchors": ["script/Script.go:ToASM", "script/Script.go:NewFromASM", "script/Script.go:EncodeParts", "script/Script.go:DecodeParts"]}
{"id": "C96", "title": "GetPublicKeyHash and the template tests exactly", "statement": "GetPublicKeyHash returns a hash without an error exactly when the script begins OP_DUP OP_HASH160, decodes, and its next item is that hash. So it also answers for scripts that are not pay-to-public-key-hash scripts (deviation): any push, whatever its length, and nothing need follow it. IsP2PKH and IsP2SH never index out of range.", "quantifier": "every byte string", "why_tests_cant": "all scripts", "anchors": ["script/Script.go:GetPublicKeyHash", "script/Script.go:IsP2PKH", "script/Script.go:IsP2SH"]}
{"id": "C97", "title": "Ciphertext format", "statement": "With a block cipher of 16-byte blocks, Encrypt returns the 16 random bytes it drew followed by the CFB encryption, with these bytes as initialisation vector, of the padded base64 text of the input, and nothing else. Decrypt returns a text exactly when the ciphertext has at least 16 bytes and those behind the first 16 decrypt to a base64 text (line breaks anywhere, bits behind the padding arbitrary) of that text. Ciphertexts are not authenticated (deviation): whoever knows a text of at most 12 bytes can turn its ciphertext, without the key, into that of any other text of the same length, and Decrypt does not notice.", "quantifier": "every text, ciphertext, initialisation vector and block cipher with 16-byte blocks", "why_tests_cant": "all texts, keys and vectors", "anchors": ["crypto/Encryption.go:Encrypt", "crypto/Encryption.go:Decrypt"]}
{"id": "C98", "title": "Redeem scripts with any number of keys", "statement": "GetRedeemScript of m and n keys, for every m and n, is the byte 0x50+m modulo 256, each key in lexicographic order behind one byte with its length modulo 256, the byte 0x50+n modulo 256 and OP_CHECKMULTISIG. For m from 1 to 16 and up to 175 keys of 1 to 75 bytes it decodes to these items, and IsMultisigOut recognises it exactly for 1 to 16 keys. The number of keys is not limited (deviation): the script of 17 keys is returned without complaint and nobody can spend it; that of 26 keys encodes their number as OP_RETURN, so everybody can spend it without a signature.", "quantifier": "every number of signatures and keys, every key, transaction and signature check", "why_tests_cant": "all key counts; spendability ranges over all unlocking scripts", "anchors": ["script/RedeemScript.go:GetRedeemScript", "script/RedeemScript.go:AddPublicKey", "script/Script.go:IsMultisigOut"]}
{"id": "C99", "title": "Address constructors on every input", "statement": "NewFromPublicKeyHash returns, for a hash of any length, the canonical base58 text of the network's version byte, the hash and the first four bytes of their double SHA256, with the hash in hex; two calls that give the same text had the same hash and network. NewFromPublicKeyString gives, for the hex text (in either case) of any bytes, the address of their HASH160, and an error for any other text; NewFromPublicKey that of the compressed key. The length of the hash is not checked (deviation): an address for a hash that is not 20 bytes is returned without an error, and then refused by NewFromString, NewP2PKHFromAddress and PayTo.", "quantifier": "every byte string, text, network and hash function", "why_tests_cant": "all byte strings", "anchors": ["script/address/Address.go:NewFromPublicKeyHash", "script/address/Address.go:NewFromPublicKeyString", "script/address/Address.go:NewFromPublicKey", "script/address/Address.go:NewFromString", "script/address/Address.go:Base58EncodeMissingChecksum"]}
{"id": "C100", "title": "What DecodeBIP276 and ValidateAddress accept", "statement": "DecodeBIP276 reads a text exactly if it is a prefix, a colon, version and network as two decimal digits each, data in hex of either case, and the first four bytes, in lower-case hex, of the double SHA256 of prefix, colon, network and version as two hex digits each and the data in lower-case hex; the prefix is not empty and has no line break, the data is not empty. ValidateAddress of a text that begins bitcoin-script: is true exactly for these texts, panics exactly on texts without the documented shape and is an error on the others. It does not check that the prefix is bitcoin-script (deviation): bitcoin-script:x:\u2026 is valid as well.", "quantifier": "every text and hash function", "why_tests_cant": "all texts", "anchors": ["script/address/BIP276.go:DecodeBIP276", "script/address/AddressValidation.go:ValidateAddress"]}
{"id": "C101", "title": "What a transaction is written as", "statement": "ToBytes of every transaction, whatever its fields hold, is the version, the number of inputs, the inputs, the number of outputs, the outputs and the locktime and nothing else, counts and script lengths in the shortest encoding; an input is the bytes of its txid backwards, index, script (empty if missing) and sequence, where only the longest beginning of the txid made of pairs of hex digits counts. With proper txids its length is 8, plus 40 per input and 8 per output, plus scripts, counts and script lengths. NewFromBytes gives the transaction back exactly if every txid is 64 hex digits. Txids are not checked (deviation): From takes any text, transactions that spend different texts can have the same bytes and id, and one with a txid of 62 digits is read back, without an error, as a transaction with another amount and script.", "quantifier": "every transaction", "why_tests_cant": "all transactions, also ill-formed ones", "anchors": ["transaction/Transaction.go:ToBytes", "transaction/Transaction.go:GetTxID", "transaction/Transaction.go:From", "transaction/input/Input.go:ToBytes", "transaction/output/Output.go:ToBytes"]}
{"id": "C102", "title": "Extra nonces of any length", "statement": "BuildCoinbase is the first part, the bytes of the two extra nonces (each as far as it is hex) and the second part. With parts from GetCoinbaseParts it is the intended coinbase exactly if the extra nonces have 12 bytes together. This is not checked (deviation): for any list of outputs there is a second extra nonce, the one a pool gets from a miner, for which the result is a valid coinbase of that height with these outputs, the intended payments buried in the script of a further output of value zero.", "quantifier": "every height, value, text, address, commitment, extra nonce and list of outputs", "why_tests_cant": "all inputs", "anchors": ["block/GetCoinbaseParts.go:BuildCoinbase", "block/GetCoinbaseParts.go:GetCoinbaseParts"]}
{"id": "C103", "title": "Merkle roots of any texts", "statement": "Whatever texts GetMerkleBranches is given, folding a coinbase hash with its result by BuildMerkleRootFromCoinbase gives the Merkle root of that hash and, for each text after the first, the bytes backwards of its longest end made of pairs of hex digits (a text of odd length gets a 0 in front). Texts that are not hex are not reported (deviation): an odd number of arbitrary characters and a g in front of any txid leave the root as it was.", "quantifier": "every list of texts, every coinbase hash and hash function", "why_tests_cant": "all lists of texts", "anchors": ["block/GetMerkleBranches.go:GetMerkleBranches", "block/BuildMerkleRootFromCoinbase.go:BuildMerkleRootFromCoinbase", "utils/ByteManipulation.go:ReverseHexString"]}
{"id": "C104", "title": "Serialised bytes belong to the caller", "statement": "The byte slices returned by ToBytes of a transaction, an input or an output, by ToBytesWithClearedInputs, GetBytesForSigHash, GetInputSignatureHash, EncodeParts and ReverseBytes hold the serialisation (digest, encoding, reversal) of what the arguments show, lie in memory that did not exist before the call, and making them changes no byte the caller can see, even when the scripts involved overlap in one buffer with spare capacity. So whatever the caller then writes into or appends to the result, transactions, scripts and buffers keep their contents, and whatever is later done to those, the result keeps its own. (script.NewFromBytes, by contrast, makes no copy.)", "quantifier": "all memories, all layouts of scripts in memory (overlaps, spare capacity), all slice growth policies of the runtime, all transactions, indices and flags, and all later sequences of assignments and appends", "why_tests_cant": "aliasing bugs show only for particular layouts and capacities; a test fixes one layout and one runtime growth policy", "anchors": ["transaction/Transaction.go: ToBytes, ToBytesWithClearedInputs, toBytesHelper", "transaction/input/Input.go: ToBytes", "transaction/output/Output.go: ToBytes, GetBytesForSigHash", "transaction/SignatureHash.go: GetInputSignatureHash", "script/OpPushdata.go: EncodeParts", "utils/ByteManipulation.go: ReverseBytes", "script/Script.go: NewFromBytes"]}
{"id": "C105", "title": "Goroutines adding to one transaction or redeem script", "statement": "When several goroutines call AddInput, From, AddOutput, PayTo or AddPublicKey on one object without a lock, at every moment of every schedule each of the lists holds everything it held before, in place, followed by elements added by some of the goroutines, none twice, and nothing else. After all calls have returned the possible contents are exactly: the old contents, then a non-empty selection, in any order, of the added elements, so elements can be lost, down to any single one. A list that only one goroutine adds to gets its element exactly; calls made one after the other lose nothing; no call waits for another. There is a data race exactly when two goroutines add to the same list.", "quantifier": "all numbers of goroutines, all schedules, all lists, capacities and growth policies of the runtime", "why_tests_cant": "lost updates depend on the interleaving and on the capacity of the slice; no test enumerates the schedules, and the exact set of outcomes is a statement about all of them", "anchors": ["transaction/Transaction.go: AddInput, AddOutput, From, PayTo", "script/RedeemScript.go: AddPublicKey"]}
{"id": "C106", "title": "Serialising a transaction while others sign it", "statement": "While any number of goroutines sign inputs of one transaction (Sign or SignAuto of a signer or of the transaction), other goroutines may call its ToBytes (ToString, GetTxID). The readers never disturb the signers and never panic, and each returns after a bounded number of its own steps. What a reader returns has the version, outputs, locktime, inputs and sequence numbers of the transaction; each script field is that of a missing script or the length of one script the input can have followed by one script the input can have. If no input can have two scripts, this is the serialisation of the transaction with some of the signatures in place, though possibly a combination that exists at no moment of any schedule. A read that no signer interrupts is the serialisation of the transaction at that moment. If an input is signed anew while it is read, the bytes can be no transaction or a different one. A reader and a signer race exactly when some call writes a script or goes through the transaction's method.", "quantifier": "all transactions, signers, calls, numbers of readers and schedules", "why_tests_cant": "the outcome depends on where in the serialisation each signer's write falls; no test enumerates the schedules", "anchors": ["transaction/Transaction.go: ToBytes, toBytesHelper, ToString, GetTxID, Sign, SignAuto", "transaction/input/Input.go: ToBytes", "transaction/signature/InternalSigner.go: Sign, SignAuto"]}
{"id": "C107", "title": "Work done for untrusted data is bounded by its size", "statement": "Whatever counts and lengths a byte string announces, the functions that read untrusted data make no more iterations than its size allows. NewFromBytes (transaction) makes at most (len+4)/9 iterations of its two loops however it ends, and one per input and output if it succeeds. DecodeParts makes at most one iteration per byte, one per part plus one if it fails, and its parts have together no more bytes than the script. GetMerkleBranches of n hashes makes ceil(log2 n)+1 calls of its recursive walk and one double hash for each node above the leaves: at most n-1+ceil(log2 n).", "quantifier": "all byte slices (with any capacity), all scripts, all lists of texts, all hash functions", "why_tests_cant": "a test measures a few inputs; the bound must hold for the input an attacker picks", "anchors": ["transaction/Transaction.go: NewFromBytes", "script/OpPushdata.go: DecodeParts", "block/GetMerkleBranches.go: GetMerkleBranches"]}
{"id": "C108", "title": "How many bytes signing hashes", "statement": "GetInputSignatureHash of an input with previous transaction and script hashes exactly the strings of the published digest: the outpoints of all inputs unless ANYONECANPAY, their sequence numbers unless ANYONECANPAY, NONE or SINGLE, the outputs the flag selects, and the preimage; nothing if it fails. Sign hashes that, SignAuto the sum of it over the inputs the key signs, so at most 40 bytes per input of the transaction plus its outputs plus the script plus 165 for each signed input. The three inner hashes are not kept between inputs: with the usual flags, signing all n inputs hashes at least 40 n^2 bytes, though the inner strings are the same for every input.", "quantifier": "all transactions (of realistic size), flags, signers and hash functions", "why_tests_cant": "tests sign two or three inputs; the growth is a statement about every number of inputs", "anchors": ["transaction/SignatureHash.go: GetInputSignatureHash, getPrevoutHash, getSequenceHash, getOutputsHash", "transaction/signature/InternalSigner.go: Sign, SignAuto"]}
{"id": "C109", "title": "Which calls can panic at all", "statement": "Whatever text, data, counts and amounts they are given, these calls return a result or an error and never panic: NewFromHexString, NewFromASM, AppendPushData and its four variants, EncodeParts, GetPushDataPrefix, the P2PKH scripts from a key, hash or address text, the P2PKH, hash puzzle and OP_RETURN outputs, From and PayTo, NewFromString and NewFromPublicKeyString of addresses, MerkleRootFromBranches, GetCoinbaseParts, NewRedeemScript, AddPublicKey (if the key library does not panic), Encrypt and Decrypt with a 16-byte block cipher. The others panic exactly when: ApplyUnlockingScript: no such input; GetLittleEndianBytes: fewer than 4 bytes; Input.String: no unlocking script; Decode32Byte: hex of too few characters for the allocation; ValidateAddress: the bitcoin-script: prefix without the BIP276 shape; DecodeStringParts and the transaction's NewFromString: hex of bytes on which DecodeParts or NewFromBytes panics (see C10, C36).", "quantifier": "all arguments of each function, all hash functions, all block ciphers, all allocations", "why_tests_cant": "a test shows that some inputs do not panic; a service that passes on user input needs all of them", "anchors": ["script/Script.go", "script/OpPushdata.go", "transaction/Transaction.go", "transaction/output/Output.go", "script/address/Address.go", "script/address/AddressValidation.go", "block/GetMerkleBranches.go: MerkleRootFromBranches", "block/GetCoinbaseParts.go", "crypto/Encryption.go", "utils/ByteManipulation.go"]}
{"id": "C110", "title": "Handing a half-signed transaction to another signer", "statement": "A transaction is often signed by several parties, each of which receives it as bytes or hex. (a) The bytes do not carry the previous scripts and amounts: in every transaction obtained by parsing, GetInputSignatureHash and Sign report an error for each input, and SignAuto signs nothing and reports no error, even for a key that the inputs pay to. (b) If the receiver puts the previous scripts and amounts back, every signature hash, for every input and flag, is the sender's, whatever the case of the txids' hex digits and whether missing unlocking scripts were nil. (c) What the receiver sends on after Sign or SignAuto is byte for byte what the sender would have got by letting that party sign in memory, with the same error or panic. (d) So a relay of any number of parties ends with the bytes of one process doing all the signing in the same order.", "quantifier": "all transactions with proper txids, all inputs and flags, all signers (also failing and panicking ones), all lists of signing jobs, all memory behind the received bytes", "why_tests_cant": "a relay has unboundedly many histories; a test signs with two keys in one process and never sees that the parsed copy differs", "anchors": ["transaction/Transaction.go: NewFromBytes, ToBytes, GetInputSignatureHash, Sign, SignAuto, ApplyUnlockingScript", "transaction/signature/InternalSigner.go", "transaction/input/Input.go"]}
{"id": "C111", "title": "The height in the coinbase script", "statement": "The coinbase built from GetCoinbaseParts and BuildCoinbase parses as a transaction whose input script begins with the block height as nodes demand it (BIP34: the script that pushes the height as an integer, in the shortest form) exactly for the heights 32768 to 8388607. The number a reader of script numbers finds there is the height below 2^23 and is not positive for the next 2^23 heights. Outside the range (deviation) every coinbase the library builds is one that nodes refuse, whatever the other arguments, and no error is reported.", "quantifier": "every height, value, text, address, commitment, miner id and extra nonces", "why_tests_cant": "a test uses a few heights of its time; the boundaries lie at the lengths of script numbers", "anchors": ["block/GetCoinbaseParts.go: GetCoinbaseParts, makeCoinbase1, BuildCoinbase"]}
{"id": "C112", "title": "What changes a transaction's id", "statement": "(a) ApplyUnlockingScript keeps the id if the input already has these bytes; otherwise the serialisation changes, and with it the id unless double SHA256 collides. (b) Signing an input without an unlocking script always changes it. (c) A transaction built with From from the id its parent had before signing does not point at the signed parent. (d) No key is needed: for every transaction with an input that may spend a P2PKH output, putting any push in front of the unlocking script gives a transaction with another id, in which this input may still spend that output and every other input may spend exactly what it could.", "quantifier": "all transactions with proper txids, all inputs, scripts, signers, children and pushes", "why_tests_cant": "that a changed script changes the id is a statement about all scripts; a test compares two ids", "anchors": ["transaction/Transaction.go: GetTxID, ToBytes, ApplyUnlockingScript, From", "transaction/signature/InternalSigner.go: Sign"]}
{"id": "C113", "title": "What a failed call leaves behind", "statement": "The methods that append to a script, AddPublicKey, From, PayTo, ApplyUnlockingScript and Sign are all or nothing: when they return an error or panic (and the caller recovers), the receiver is exactly as before. So a caller that goes on after failures has at the end what the calls that succeeded, made alone in that order, give. SignAuto (deviation) is not: it panics at the first input whose previous script cannot be read, and leaves the inputs it selects before that one signed, each exactly as signing it alone would, and everything else as it was; giving the input a readable script and calling it again yields what a first call on the repaired transaction yields. A failed Sign or SignAuto (deviation) has already replaced flag 0 in the signer.", "quantifier": "every receiver, every list of calls with any arguments, every point of failure (error or panic of the code, the signer or the key library)", "why_tests_cant": "a test of an error looks at the error; the state at every point of failure and after every history of failures has to be compared", "anchors": ["script/Script.go: AppendPushData, AppendPushDataHexString, AppendPushDataString, AppendPushDataArray, AppendPushDataStrings", "script/RedeemScript.go: AddPublicKey", "transaction/Transaction.go: From, PayTo, ApplyUnlockingScript, Sign, SignAuto", "transaction/signature/InternalSigner.go: Sign, SignAuto"]}
{"id": "C114", "title": "How large a transaction gets by signing", "statement": "Signing an input without unlocking script, with a signature of at most 74 bytes and a key of at most 75, makes the serialised transaction longer by exactly the length of the signature, of the key and 3 bytes. A payment built with From (for P2PKH outputs of the key) and PayTo and signed with SignAuto and a compressed key never fails, and has 34 bytes per output and, for signatures of lo to hi bytes, between lo + 77 and hi + 77 per input, besides 8 bytes and the two counts: so a fee for 149 bytes per input (signatures of at most 72 bytes) is never for too few bytes.", "quantifier": "all transactions with proper txids, all signers with signatures in the range, any number of inputs and payees", "why_tests_cant": "the size depends on the lengths of all signatures and on the boundaries of the compact sizes; a test shows one transaction", "anchors": ["transaction/Transaction.go: ToBytes, From, PayTo, SignAuto", "transaction/signature/InternalSigner.go: Sign, SignAuto", "script/UnlockingScript.go: NewP2PKHUnlockingScript"]}
{"id": "C115", "title": "A payment made with the library is accepted by a node", "statement": "Calls of From (for unspent outputs of the keys, described correctly), PayTo and AddOutput in any order on a new transaction, followed by SignAuto with the keys, never fail, and a node that checks the bytes of the result against the unspent outputs accepts them exactly if the calls spend something and pay something, spend no output twice and pay no more than they spend. A wallet that keeps its coins as the ids, indexes, scripts and amounts the library gives for the transactions it makes and sees stays in step with the node's unspent outputs through any history. The library itself checks none of these conditions: a payment that spends an output twice, pays more than it spends, or spends or pays nothing is built and signed without an error and refused by every node. (Ideal: an error.)", "quantifier": "all sets of keys, all unspent outputs, all sequences of calls, all histories of payments and transactions of others", "why_tests_cant": "a test makes one payment; the claim is about every list of calls and every history, and about what a node with any ledger would say", "anchors": ["transaction/Transaction.go: New, From, PayTo, AddOutput, ToBytes, GetTxID, NewFromBytes", "transaction/signature/InternalSigner.go: SignAuto", "transaction/output/Output.go: GetLockingScriptHexString"]}
{"id": "C116", "title": "A block assembled with the library is accepted by a node", "statement": "Take transactions that a node accepts one after the other, the coinbase of GetCoinbaseParts and BuildCoinbase with 12 bytes of extra nonces, and the header of GetMerkleBranches, BuildMerkleRootFromCoinbase and BuildBlockHeader. A node accepts the block of these as the next one exactly if it is not too large, version, previous hash, time and bits are as the chain demands, the hash of the header is at most the target ExpandTargetFromAsInt gives for the bits (positive, below 2^256), the height is the next one, from 32768 to 8388607, the amount is at most the subsidy and the fees, and no transaction is there twice or was there before. A miner's wallet that sees the block then has its coins, the reward among them, in the node's ledger. GetCoinbaseParts reports no error for heights and amounts with which no such block is ever accepted (deviation).", "quantifier": "all chains, ledgers, lists of accepted transactions and arguments of the four functions", "why_tests_cant": "the claim is about every nonce, target, list of transactions and state of a node", "anchors": ["block/GetCoinbaseParts.go: GetCoinbaseParts, BuildCoinbase", "block/GetMerkleBranches.go: GetMerkleBranches", "block/BuildMerkleRootFromCoinbase.go: BuildMerkleRootFromCoinbase", "block/BuildBlockHeader.go: BuildBlockHeader", "block/Difficulty.go: ExpandTargetFromAsInt", "utils/VarInt.go: VarInt"]}
{"id": "C117", "title": "What the signatures made with the library authorise", "statement": "Sign uses the key for the digest of the one input, SignAuto for the digests of the inputs whose previous script begins like a payment to the key, and neither for anything else. If nobody can make signatures for the key in any other way, then an output paid to the key stays unspent through every history of transactions that a node accepts, whoever made them, unless one of these transactions is what was signed: same version, locktime, spent output, script and amount, and with flag ALL the same inputs, sequence numbers and outputs. For payments built with From, PayTo and AddOutput: unless it spends exactly the outputs one payment named and pays exactly what that payment paid. The only ways around exhibit a second public key with the same hash or two strings with the same double SHA256. What SignAuto signs with flag NONE is accepted with any outputs.", "quantifier": "all transactions and histories of transactions that a node accepts, all keys, flags, payments and hash functions", "why_tests_cant": "it is a statement about everything an adversary could send, not about what the library's users send", "anchors": ["transaction/signature/InternalSigner.go: Sign, SignAuto", "transaction/Transaction.go: GetInputSignatureHash, From, PayTo, AddOutput", "script/UnlockingScript.go: NewP2PKHUnlockingScript"]}
{"id": "C118", "title": "Goroutines appending to one script", "statement": "When several goroutines call AppendPushData, AppendPushDataHexString, AppendPushDataString, AppendPushDataArray, AppendPushDataStrings or AppendOpCode on one script without a lock, at every moment of every schedule the script holds the bytes it held at the start, in place, and behind them as many bytes as some of the calls append in all, each being the byte that some call puts at its place; no other memory changes but the spare capacity of the script. Scripts made of single opcodes lose opcodes but are not torn; of two pushes of the same length into spare capacity, every bytewise mixture is possible, so that the script may hold data that nobody pushed or may not decode (deviation). A call that nobody interrupts does exactly what it does alone, whatever the others have begun; calls one after the other append in that order; no call waits; a failing call touches nothing; there is a data race exactly when two calls succeed.", "quantifier": "all numbers of goroutines, calls, schedules, scripts, memories, capacities and growth policies of the runtime", "why_tests_cant": "torn scripts depend on the interleaving of single bytes and on the capacity of the slice; no test enumerates the schedules", "anchors": ["script/Script.go: AppendPushData, AppendPushDataArray, AppendOpCode, AppendPushDataHexString, AppendPushDataString, AppendPushDataStrings"]}
{"id": "C119", "title": "Reading a script while others append to it", "statement": "A goroutine that calls ToString, ToASM, IsP2PKH, IsP2PK, IsP2SH, IsData, IsMultisigOut or GetLockingScriptHexString on a script while others append to it reads, in every schedule, the bytes the script held at the start and behind them a mixture as in C118. If the appends do not overlap one another (one goroutine makes them, or a lock is held around each), the call reads a snapshot: the script of the moment at which it began to look, which is the base and then, whole and in order, what the appends that had returned by then added; the script only grows, and at the end holds all of them; and GetPublicKeyHash, which looks four times, returns what it returns for the script of one of these moments. Output.ToBytes and GetBytesForSigHash look twice, and even then return the serialisation with an earlier script followed by the bytes that were appended in between, which is the serialisation of no output at all unless the two lengths agree (deviation). No reading call waits; there is a data race exactly when two appends succeed, or one does and somebody reads.", "quantifier": "all numbers of appending and reading goroutines, calls, schedules, scripts, memories, capacities and growth policies of the runtime", "why_tests_cant": "what a reader sees depends on where its steps fall among those of the appends; no test enumerates the schedules", "anchors": ["script/Script.go: ToString, ToASM, IsP2PKH, IsP2PK, IsP2SH, IsData, IsMultisigOut, GetPublicKeyHash, AppendPushData, AppendOpCode", "transaction/output/Output.go: ToBytes, GetBytesForSigHash, GetLockingScriptHexString"]}
{"id": "C120", "title": "A wallet on top of the library sees all its money", "statement": "A wallet that reads transactions with NewFromBytes and keeps as its coins the outputs whose locking script is the P2PKH script of one of its keys (with the id, index, script text and amount the library gives for them), less those that inputs of later transactions name, has at every moment exactly the unspent outputs of its keys that a node has: none is missed and none is kept too long, through any history of its own payments and of the transactions of others, and also when it reads whole accepted blocks, coinbase first, in the order of the block, one block after another. Its balance is what the unspent outputs of its keys are worth; a transaction changes it by what it pays to the keys less what it takes from them; a payment of x with the change to oneself raises the balance of the one by x and lowers that of the other by x and the fee. A wallet started again from its keys, which reads the chain from a point at which they had nothing, comes to the same coins.", "quantifier": "all sets of keys, all ledgers, all histories of payments and transactions, all accepted blocks and chains of blocks", "why_tests_cant": "missing one coin needs one particular transaction in one particular history; no test enumerates the histories", "anchors": ["transaction/Transaction.go: New, From, PayTo, ToBytes, GetTxID, NewFromBytes", "transaction/signature/InternalSigner.go: SignAuto", "transaction/output/Output.go: GetLockingScriptHexString", "script/Script.go: NewP2PKHFromAddress"]}
{"id": "C121", "title": "A payment that several parties make together", "statement": "The unsigned transaction of a payment from outputs of several owners, built with From, PayTo and AddOutput in any order, goes as bytes from party to party; each parses it, puts the previous scripts and amounts back, calls SignAuto with its key and passes the bytes on. Nothing fails on the way, whoever takes part and in whichever order, and a node accepts the bytes at the end exactly if the calls spend and pay something, spend no output twice and pay no more than they spend, the transaction is not too large and its hash is new, and the owner of every output that is spent was among the parties; the node then has the outputs of the unsigned transaction and no more what it spends. If the keys have different hashes, the bytes at the end do not depend on the order of the parties.", "quantifier": "all numbers and orders of parties, all keys, all ledgers, all sequences of calls", "why_tests_cant": "the number of parties, orders and mixtures of inputs is unbounded; a test signs one transaction with two keys in one order", "anchors": ["transaction/Transaction.go: From, PayTo, AddOutput, ToBytes, NewFromBytes, SignAuto, GetInputSignatureHash", "transaction/signature/InternalSigner.go: Sign, SignAuto"]}
{"id": "C122", "title": "Calls on a transaction while others add to it", "statement": "While goroutines call AddInput, From, AddOutput, PayTo on a transaction, others call ToBytes, ToString, GetTxID, InputCount, OutputCount, GetTotalOutputSatoshis, IsCoinbase, GetInputSignatureHash. On every schedule the transaction is at every moment the one at the start with some inputs and outputs added, each at most once; every look of a call finds such a list, complete; every call returns after a bounded number of its own steps, or panics; a call that nobody interrupts does what it does alone. If additions to the same list do not overlap, the lists only grow and hold exactly what the goroutines that have returned added; no call panics that asks for an input which was there; the counts, IsCoinbase, and the digest under ANYONECANPAY or NONE, or without inputs being added, or under SINGLE without outputs being added, are those of the transaction at one moment of the call; ToBytes sees four moments in turn. Not so otherwise (deviation): ToBytes can return bytes that claim two outputs and hold three and that the library does not parse, the digest under ALL can be that of no moment, and when additions overlap SINGLE can panic. Calls that only look leave no trace, and there is a data race only between a goroutine that replaces a list and one that uses it.", "quantifier": "all transactions, all numbers of goroutines and calls, all schedules, all ways the runtime grows slices", "why_tests_cant": "a race shows on few schedules; a test sees those that the scheduler happens to choose", "anchors": ["transaction/Transaction.go: AddInput, From, AddOutput, PayTo, InputCount, OutputCount, GetTotalOutputSatoshis, ToBytes, toBytesHelper, ToString, GetTxID, IsCoinbase", "transaction/SignatureHash.go: GetInputSignatureHash, getPrevoutHash, getSequenceHash, getOutputsHash"]}
{"id": "C123", "title": "Signing through the transaction while others add to it", "statement": "The transaction's own Sign and SignAuto end by assigning the whole struct to itself. Whatever inputs and outputs other goroutines add, for every transaction and every such call that signs, there is a schedule after which all have returned without error and the transaction has the inputs and outputs that it had at the start: everything added is lost (deviation). Through the signer's own Sign and SignAuto nothing is lost, on any schedule, when one goroutine adds inputs and one adds outputs; and nothing is lost when no two replacements of a list overlap. Then also what Sign signs is the digest of the transaction at one moment, and SignAuto signs the inputs that pay to its key at the moment its loop begins, each with a digest of one moment, and passes over one only if its digest is an error (under the conditions of C122 on the flag and what is added).", "quantifier": "all transactions, all signers, all inputs and outputs added, all schedules", "why_tests_cant": "the loss happens on some schedules only, and no call reports it", "anchors": ["transaction/Transaction.go: Sign, SignAuto, AddInput, AddOutput, ApplyUnlockingScript", "transaction/signature/InternalSigner.go: Sign, SignAuto", "transaction/SignatureHash.go: GetInputSignatureHash"]}
{"id": "C124", "title": "Asking for a redeem script while others add keys", "statement": "While goroutines call AddPublicKey on a redeem script, others call GetRedeemScript (or GetAddress, GetRedeemScriptHash). On every schedule, at every moment: nobody panics (if the sort stays inside of the array, as Go's insertion sort does; in general the program panics exactly when the sort reads outside of the keys it was given), the redeem script has at least as many keys as at the start and at most those added besides, each of them one of those, and every script returned lists keys among those and claims a number of keys within the same bounds. Every AddPublicKey returns after N+4 steps of its own and, with Go's insertion sort, every GetRedeemScript after 3N\u00b2+2N+7, N the number of all keys, however the others interfere. Goroutines that run one after another do what the calls do one after another. But otherwise (deviation), for every redeem script and all keys added: all calls can return without error and every added key be lost, because GetRedeemScript stores the keys that it found at its beginning; and a call can return a script that lists the old keys and claims the number with the new ones, which is the redeem script of no list of compressed keys. Any two goroutines that have returned are a data race, and a single one is free of races.", "quantifier": "all redeem scripts, all numbers of goroutines of both kinds, all schedules, all ways the runtime grows slices, every sorting algorithm working through Less and Swap", "why_tests_cant": "the loss and the wrong count happen on some schedules only, and no call reports them", "anchors": ["script/RedeemScript.go: AddPublicKey, GetRedeemScript, GetAddress, GetRedeemScriptHash", "utils/ByteManipulation.go: SortByteArrays"]}
{"id": "C125", "title": "What a Merkle proof shows to a client that has only the header", "statement": "A client that has the 80 bytes of a header built with GetMerkleBranches, BuildMerkleRootFromCoinbase and BuildBlockHeader from the txids of a block, and the number of these, compares MerkleRootFromBranches with the root in bytes 36 to 67. Every txid of the block has a proof with as many branches as the tree has levels for which the two agree; and if they agree for any txid, index and that many branches, then the txid is one of the block's, at the position of the index if there is such a position, unless a string hashed in the proof and a different one hashed in the tree are a SHA256d collision. The function itself, which does not know the number of transactions, is satisfied with less (deviations): with one branch fewer it accepts the hash of two txids as a txid; with one branch more it accepts either half of any 64-byte transaction of the block as a txid; and in a block with an odd number of transactions (at least three) it accepts the last one also at the position behind the end.", "quantifier": "every list of txids, every header, txid, index and list of branches, every hash function", "why_tests_cant": "the claims are about all proofs that a dishonest server could send", "anchors": ["block/GetMerkleBranches.go: MerkleRootFromBranches, GetMerkleBranches", "block/BuildMerkleRootFromCoinbase.go: BuildMerkleRootFromCoinbase", "block/BuildBlockHeader.go: BuildBlockHeader", "transaction/Transaction.go: GetTxID, ToBytes"]}
{"id": "C126", "title": "Goroutines decrypting one ciphertext", "statement": "Decrypt works in the caller's slice. When several goroutines call it with the same slice without a lock, at every moment of every schedule the slice keeps its length and initialisation vector, and each of the first 16 bytes behind it is the ciphertext's or the plaintext's; a call that returns has decoded a text of the body's length of which the same holds, and never panics; none waits for another. For texts of at most 12 bytes every blend of ciphertext and plaintext, byte by byte, is possible and nothing else, and both of two calls can return what it decodes to: two goroutines can decrypt an encryption of pay 300 and both get pay 900 without an error (deviation). A call that nobody interrupts does what Decrypt does to the bytes that it finds; so of calls one after the other the first gives the text, and for such short texts every other one, the second putting the ciphertext back. There is a data race exactly when two goroutines call it with a ciphertext of more than 16 bytes.", "quantifier": "every 16-byte-block cipher, every ciphertext, any number of goroutines, every schedule", "why_tests_cant": "the claims are about all interleavings of the accesses of any number of calls", "anchors": ["crypto/Encryption.go: Decrypt"]}
{"id": "C127", "title": "Goroutines building Merkle roots from slices of one array", "statement": "BuildMerkleRootFromCoinbase appends its first branch to the slice it is given. When several goroutines call it with slices of one array without a lock, a call that returns gives exactly the roots for which there is a choice, byte by byte, of what it may see at each place it looks at: a byte that some call puts there, or what was there before if it puts nothing there itself; every such choice comes up in some schedule. The array keeps its length and only changes to bytes that calls put there; no call waits for another. So if no call puts a byte where another looks, or only the same byte, every call returns the right root whatever the schedule: with slices that have no room behind them (which is how Sha256d returns hashes; the array is then not changed at all), and when all have the same slice and branches. But two calls with one slice that has room behind it and different first branches can return the root for any blend of these, for instance the other's root; and of two hashes next to each other in one array, the call for the first can replace the second (deviation). When all have returned, there was a data race exactly if some call puts a byte where another looks or puts one.", "quantifier": "all hash functions, every array, any number of calls with any slices of it and any branches, every schedule", "why_tests_cant": "the claims are about all interleavings of the accesses of any number of calls", "anchors": ["block/BuildMerkleRootFromCoinbase.go: BuildMerkleRootFromCoinbase", "crypto/Hash.go: Sha256d"]}
{"id": "C128", "title": "A fee chosen before signing", "statement": "When a payment is built with From (for unspent outputs of the keys), PayTo and AddOutput in any order and every input is signed with SignAuto, and the signatures of the keys are lo to hi (at most 74) bytes long, then the size of ToBytes is at least the size computed before signing with lo+77 bytes for each input and at most that with hi+77. What a node sees as the fee is exactly the amounts given to From less the amounts paid. So a node that demands a rate per 1000 bytes takes the transaction exactly if it accepts it and that difference pays for its bytes: it is taken if it pays for the larger estimate and refused if it does not pay for the smaller one. A wallet that computes the fee from the larger estimate and sends the rest back as change makes a payment that is taken at the rate, pays exactly this fee, and pays too much by no more than the spread of the signature lengths (and the rounding to whole satoshis).", "quantifier": "all ledgers, any keys with signatures of lo to hi bytes, every list of calls, every rate", "why_tests_cant": "the claim is about every payment and every rate: sizes depend on the numbers of inputs and outputs through VarInts, on scripts and on signatures that are known only after signing", "anchors": ["transaction/Transaction.go: From, PayTo, AddOutput, ToBytes, SignAuto", "transaction/signature/InternalSigner.go: Sign", "transaction/input/Input.go: ToBytes", "transaction/output/Output.go: ToBytes"]}
{"id": "C129", "title": "The work of a mining pool", "statement": "A pool makes a job with GetCoinbaseParts and GetMerkleBranches and gives each miner its own first extra nonce; header and block for a share (second extra nonce, time, nonce) are made with BuildCoinbase, BuildMerkleRootFromCoinbase and BuildBlockHeader. Two shares for one job, with first extra nonces of one length, have the same header exactly if the bytes of the extra nonces, the times and the nonces are the same, unless two different strings hashed on the same level on the way to the Merkle root collide: no two miners do the same work. If the job is one for the next block, then for every share with extra nonces of 12 bytes in all the block is accepted by a node exactly if the time is in range and the hash of the header is not above the target of ExpandTargetFromAsInt (and it is not too large and its coinbase is new), and then the coinbase pays its whole value to the pool's wallet. Deviations: the extra nonce is a text of which only the beginning in hex counts, so there are any number of different texts for one header and a pool that tells shares by their texts pays twice; and nothing checks its length, so for any script there is an extra nonce with which a block that a miner finds is accepted and pays the whole value to that script.", "quantifier": "all hash functions, jobs, shares and scripts, every chain, ledger and list of transactions", "why_tests_cant": "the claim is about all pairs of shares and all texts that a miner may send", "anchors": ["block/GetCoinbaseParts.go: GetCoinbaseParts, BuildCoinbase", "block/GetMerkleBranches.go: GetMerkleBranches", "block/BuildMerkleRootFromCoinbase.go: BuildMerkleRootFromCoinbase", "block/BuildBlockHeader.go: BuildBlockHeader", "block/Difficulty.go: ExpandTargetFromAsInt"]}
{"id": "C130", "title": "Selling a secret", "statement": "A buyer pays to an output made by NewHashPuzzle from a secret and the seller's key. The seller signs an input that spends it (Sign), appends a push of the secret to the unlocking script (AppendPushData) and sets it (ApplyUnlockingScript): this succeeds, changes nothing else, the input is accepted, and the buyer who parses the bytes of the transaction, finds the input by the outpoint and takes the last part of DecodeParts reads the secret (an empty one as the byte 0). Whatever transaction spends the output and whoever made it: if a node accepts it and the buyer reads a part, then it is a string with the same HASH160 as the secret, or the opcode that pushes such a string; if the secret has two bytes or more and the transaction less than 65536, he reads exactly the secret, unless another string has the same HASH160. Deviation: anyone can put a push of 65533 bytes before what the unlocking script pushes; a node accepts the transaction instead of the other, and the buyer panics. The same happens for a secret of 65533 to 65535 bytes.", "quantifier": "all secrets, keys, ledgers and transactions that take the money", "why_tests_cant": "the claim is about every transaction that anyone may use to take the money", "anchors": ["transaction/output/Output.go: NewHashPuzzle", "transaction/signature/InternalSigner.go: Sign", "script/Script.go: AppendPushData", "transaction/Transaction.go: ApplyUnlockingScript, NewFromBytes", "script/OpPushdata.go: DecodeParts"]}
{"id": "C131", "title": "Publishing data, and reading what others publish", "statement": "A publisher puts any items of data into any number of outputs (NewOpReturnParts), between the From and PayTo calls of a payment, and signs. Nothing fails; a node accepts the transaction exactly if the payment can be made (and the bytes are not too many and no other transaction has the same hash); and a reader that parses the bytes (NewFromBytes), keeps the outputs for which IsData is true and takes their DecodeParts reads exactly the items, in order, each list behind OP_FALSE and OP_RETURN (an empty item as the byte 0). For any transaction, whoever made it, the reader panics exactly if some output's script is empty, is the one byte OP_FALSE, or is a data script that after complete tokens announces a push of 65533 to 65535 bytes (OP_PUSHDATA2) or at least 2^32 - 5 (OP_PUSHDATA4); otherwise it reads the parts of exactly the data outputs that consist of complete tokens. Deviation: whoever can make a payment can add such an output of no value: nodes accept the transaction all the same, and the reader panics.", "quantifier": "all data, payments, ledgers and transactions", "why_tests_cant": "the claim is about every transaction anyone may publish, and every sequence of calls", "anchors": ["transaction/output/Output.go: NewOpReturnParts", "script/Script.go: IsData", "script/OpPushdata.go: DecodeParts", "transaction/Transaction.go: NewFromBytes, From, PayTo, AddOutput"]}
{"id": "C132", "title": "Many contribute to one payment, all or nothing", "statement": "Contributors whose keys sign with ALL and ANYONECANPAY each make a transaction with From for some coins of theirs and the outputs of a common goal (PayTo, AddOutput) and sign it (SignAuto). An organiser parses the bytes of any of these (NewFromBytes), puts their inputs into one transaction (AddInput) in any order, and adds the goal. Nothing fails, and a node accepts the bytes exactly if the coins are worth the goal, none is given twice and there is something to spend and to pay (and the bytes are not too many and no other transaction has the same hash); then the goal is paid and exactly these coins are spent. A contributor risks nothing: if the key has signed contributions to this goal only, and nobody can make signatures for it in any other way, then through any history of transactions that a node accepts, whoever made them, a coin of the key stays unspent unless it was given and a transaction takes it that pays exactly the goal, or there is a collision of a hash function.", "quantifier": "all goals, numbers of contributors, coins, orders, ledgers and histories", "why_tests_cant": "the claim is about every set of contributions and every later transaction of anyone", "anchors": ["transaction/Transaction.go: From, PayTo, AddInput, AddOutput, ToBytes, NewFromBytes", "transaction/signature/InternalSigner.go: SignAuto", "transaction/SignatureHash.go: GetInputSignatureHash", "transaction/signature/sighash/SigHashFlag.go: AnyOneCanPay"]}
{"id": "C133", "title": "Which flags make signatures that nodes accept", "statement": "A payment made with From, PayTo and AddOutput and signed with the flag of the exported constants can be mined: nothing fails whatever the flag of the key, and nodes accept the bytes exactly if the flag is Old (which means the default), AllForkID, NoneForkID or SingleForkID, or one of the last three together with AnyOneCanPay (and the payment can be made, the bytes are not too many and no other transaction has the same hash). The same of one input with Sign and of every input with SignAuto. The exported constants All, None, Single, AnyOneCanPay and even AnyOneCanPayForkID, which is listed with the flags needed since the fork, are signed with without an error and no node ever accepts the result.", "quantifier": "all flags, keys, payments, ledgers and inputs", "why_tests_cant": "the claim is about all 256 flags and every transaction", "anchors": ["transaction/signature/sighash/SigHashFlag.go: AllForkID, NoneForkID, SingleForkID, AnyOneCanPayForkID", "transaction/signature/InternalSigner.go: Sign, SignAuto", "transaction/SignatureHash.go: GetInputSignatureHash"]}
{"id": "C134", "title": "Offers signed with SINGLE and ANYONECANPAY", "statement": "A seller with a key that signs with SINGLE and ANYONECANPAY makes an offer with From for some coins and a PayTo or AddOutput for each in the same order, signs it (SignAuto) and hands out the bytes. A buyer parses them (NewFromBytes), adds coins (From) and outputs (PayTo, AddOutput), signs with the keys of these coins (SignAuto), and sends the bytes (ToBytes). Nothing fails, the seller's signatures stay as they are, and a node accepts the bytes exactly if the coins of both are worth what all the outputs pay, none is spent twice and there is something to spend and to pay (and the bytes are not too many and no other transaction has the same hash); then the coins of both are spent and what both want is paid. The seller is safe: if the key has signed offers only, and nobody can make signatures for it in any other way, then through any history of transactions that a node accepts, whoever made them, a coin of the key stays unspent unless a transaction takes it that has at the same position an output paying exactly what was asked for this coin, or there is a collision of a hash function.", "quantifier": "all offers, additions of buyers, keys, ledgers and histories", "why_tests_cant": "the claim is about every completion of every offer and every later transaction of anyone", "anchors": ["transaction/Transaction.go: From, PayTo, AddOutput, ToBytes, NewFromBytes", "transaction/signature/InternalSigner.go: SignAuto", "transaction/SignatureHash.go: GetInputSignatureHash", "transaction/signature/sighash/SigHashFlag.go: SingleForkID, AnyOneCanPay"]}
{"id": "C135", "title": "With SINGLE every signed input has an output of its own", "statement": "A key that signs with SINGLE (and ANYONECANPAY) with SignAuto lets its coins go only together with the output at the same position. Of the inputs that have an output at their position this holds: through any history of transactions that a node accepts, whoever made them, a coin of the key stays unspent unless a transaction takes it that has at the position of the coin the same output as the transaction signed, or like it none, or there is a collision of a hash function. But SignAuto signs the inputs that have no output at their position as well, without an error: anyone who has as many coins as there are inputs before such an input can read it from the bytes (NewFromBytes, AddInput), put it behind their coins (From) with at most as many outputs of their own choice (PayTo, AddOutput) and sign for their coins (SignAuto), and a node accepts that exactly if it would accept a payment from all these coins.", "quantifier": "all transactions built and signed, positions, coins and outputs of others, ledgers and histories", "why_tests_cant": "the claim is about every later transaction of anyone", "anchors": ["transaction/signature/InternalSigner.go: SignAuto", "transaction/SignatureHash.go: GetInputSignatureHash", "transaction/Transaction.go: AddInput, From, PayTo, NewFromBytes"]}
{"id": "C136", "title": "A script that several places hold is one script", "statement": "The append methods of a script (AppendPushData, AppendPushDataHexString, AppendPushDataString, AppendPushDataArray, AppendPushDataStrings, AppendOpCode) change the one script object they are called on: PreviousTxScript, UnlockingScript and LockingScript fields that hold this object, in whatever inputs and outputs of whatever transactions, all show the same bytes appended, and nothing else changes; on an error nothing changes. On a nil script they panic, unless the argument cannot be encoded, which is found first and is an error. The reading methods panic on nil, except GetPublicKeyHash (an error); Output.String, GetLockingScriptHexString and Input.String panic exactly when the locking or unlocking script is nil. In any program that builds any number of transactions with New, From, PayTo, AddInput, AddOutput, ApplyUnlockingScript, Sign, SignAuto (of inputs and outputs made for the call) and appends to scripts through the fields of inputs and outputs, each transaction shows exactly what its own steps computed: no two fields ever hold one script. But PreviousTxScript filled in with the locking script of the output spent makes the two one: appending to it there changes the earlier transaction and its id (deviation from independence).", "quantifier": "all stores with any sharing, pointers, arguments, transactions; all programs of these calls", "why_tests_cant": "sharing is not visible in the types; the claim is about every program and every store", "anchors": ["script/Script.go: AppendPushData, AppendPushDataHexString, AppendPushDataString, AppendPushDataArray, AppendPushDataStrings, AppendOpCode, ToString, ToASM, IsP2PKH, IsP2PK, IsP2SH, IsData, IsMultisigOut, GetPublicKeyHash", "transaction/output/Output.go: String, GetLockingScriptHexString", "transaction/input/Input.go: String", "transaction/Transaction.go: AddInput, AddOutput"]}
{"id": "C137", "title": "Paying to a mistyped address", "statement": "PayTo with an address in which one character, with at least six after it, is replaced by another, or two different neighbours with at least five after them are exchanged, is an error or pays another public key hash than the one the address was made from; a typo in the last five characters (the checksum) pays the same hash or one next to it. If ValidateAddress accepts the mistyped text (whatever the place of the typo), then PayTo does not pay the hash of the address, and the text is itself the address of the hash that is paid. (Ideal: PayTo refuses a mistyped address, as the checksum is there for. Deviation: for every hash whose first byte is 2 to 254, either network, and every one of the last 31 characters, each of the 57 mistypings is accepted.) A node accepts the payment: the payer's balance falls by the amount and the fee, the balance of no wallet without a key of the other hash rises, and the amount is in an unspent output that takes a public key of that hash to spend.", "quantifier": "every 20-byte hash, both networks, every place and kind of replacement or exchange; every hash function; every ledger and pair of wallets", "why_tests_cant": "the claim is over all hashes, all checksums and all typos; it rests on 58^6 > 2^32 and on the numeral arithmetic", "anchors": ["script/address/Address.go: NewFromString, addressToPubKeyHashStr, NewFromPublicKeyHash", "script/address/AddressValidation.go: ValidateAddress", "transaction/Transaction.go: PayTo", "transaction/output/Output.go: NewP2PKHFromAddress"]}
{"id": "C138", "title": "Lock times", "statement": "Calls that add unspent outputs of the user's keys, by From or with AddInput and any sequence numbers, and any outputs, then any Locktime, then signing: nothing fails, NewFromBytes finds the lock time and the sequence numbers in the bytes, and a node that works at any height and time accepts the bytes exactly if the payment is balanced (and the bytes fit and the hash is new) and the lock time is 0, or a height or time that has passed, or all sequence numbers are 0xffffffff. (Ideal: setting Locktime locks the transaction. Deviation: if the coins were added with From, it is accepted at every height and time whatever the lock time.) If all that a key has ever signed is locked at the height and time of every transaction of a history, whoever makes these, then what is paid to the key stays unspent through it, unless two strings collide under a hash function.", "quantifier": "every list of calls, lock time, sequence numbers, keys, ledger, height, time; every history of transactions of anybody; every set of signed locked inputs and flag; every hash function", "why_tests_cant": "the claim is over all heights, times and histories, and about what others can make of a signature", "anchors": ["transaction/Transaction.go: New, From, AddInput, Transaction.Locktime, SignAuto, NewFromBytes", "transaction/input/Input.go: Input.SequenceNumber, ToBytes", "transaction/SignatureHash.go: GetInputSignatureHash"]}
{"id": "C139", "title": "Versions of one payment", "statement": "If a key has signed, with the flag ALL, inputs of some transactions only, and a node accepts any transaction that spends an output of the key, then the unspent outputs afterwards are those after one of these transactions, under the hash of the bytes that were accepted (at a given height and time: after one of them that is final then); if the key has signed inputs of one transaction only, all versions that a node can accept leave the same outputs, each under its own hash. Anybody can make such a version without any key: NewFromBytes, ApplyUnlockingScript with a push in front, ToBytes; the node accepts it. Once a version is accepted, a transaction that names an output by GetTxID of another version is never accepted, through any history; one that names it by the id of the parsed accepted bytes can be made with From and is accepted. All unless strings collide under a hash function.", "quantifier": "every set of signed inputs, key, ledger, transaction of anybody, pushed data of 1 to 75 bytes and history; every hash function and signature check", "why_tests_cant": "the claim is over all the transactions that anybody could make from a signed one and over all histories", "anchors": ["transaction/Transaction.go: NewFromBytes, ApplyUnlockingScript, ToBytes, GetTxID, From", "transaction/SignatureHash.go: GetInputSignatureHash", "transaction/signature/InternalSigner.go: SignAuto"]}
{"id": "C140", "title": "Payment requests", "statement": "For every script that is not empty, EncodeBIP276 for the main network writes one text; ValidateAddress calls it valid and DecodeBIP276 reads that script from it. If somebody adds an output with what it read to a payment from its keys, signs it and a node accepts it, then an output with that amount and exactly that script is unspent afterwards at its place; for the script of an address this is what PayTo of the address does. A text with the same checksum that is read says the same or there is a collision of the four bytes; a text with another checksum behind the same characters is never read; so one wrong character in the checksum is always noticed. Expected: a text that ValidateAddress calls valid can be paid with PayTo; a text with a wrong character is refused with an error; a request for the test network can be read.", "quantifier": "every script, amount, ledger, payment, hash function, signature check, transaction, changed text and place and kind of a wrong character", "why_tests_cant": "the claim is over all scripts and all changed texts, and its end is what a node holds afterwards", "anchors": ["script/address/BIP276.go: EncodeBIP276, DecodeBIP276", "script/address/AddressValidation.go: ValidateAddress", "transaction/Transaction.go: PayTo, AddOutput", "transaction/signature/InternalSigner.go: SignAuto"]}
{"id": "C141", "title": "Escrow: an output that m of n owners spend together", "statement": "For every list of 1 to 16 keys of 1 to 75 bytes and every m from 1 to 16: a payment with an output that has the script GetRedeemScript gives leaves an unspent output with exactly that script. Any m owners of different keys in the list, each signing what GetInputSignatureHash returns, can spend it: with their signatures pushed after an empty item in the order of the keys, and applied with ApplyUnlockingScript, a node accepts the transaction built with From for it if and only if something is paid, no more than the output is worth, and the transaction is new and not too big; afterwards the output is gone and what was agreed is unspent. If signatures are good for one key only, every other order is refused. Through every history of transactions by anyone the output stays unspent, unless m owners of different keys in the list have each signed an input that authorises the one that spends it (with flag ALL: the same outpoints and outputs), or two different strings with the same hash are at hand; with fewer than m owners who have signed anything it stays unspent whatever happens.", "quantifier": "every list of keys, number of signatures, amount, ledger, payment into and out of the escrow, set and order of owners, flags, history of transactions, hash function and signature check", "why_tests_cant": "the claim is over all transactions anyone could make and all histories of a node", "anchors": ["script/RedeemScript.go: GetRedeemScript, AddPublicKey", "script/Script.go: AppendPushDataArray", "transaction/SignatureHash.go: GetInputSignatureHash", "transaction/Transaction.go: AddOutput, From, ApplyUnlockingScript"]}
{"id": "C142", "title": "Payment channels: an escrow with a locked refund", "statement": "For an output with the script GetRedeemScript gives for 2 of the keys of a payer and a payee: if both owners have signed a refund that is locked (a lock time, and a sequence number other than 0xffffffff for the input added with AddInput), the payer has also signed some updates and the payee those it took, all with flags of type ALL, then through every history of transactions by anyone at heights and times at which the refund is locked, the output stays unspent or it is spent by a transaction that pays exactly what one of the payer's updates and one of the taken transactions pay, or a collision is at hand. At all heights and times the payer never loses more than the refund or one of the updates says. For every list of keys and every m from 1 to 16, any m of the owners can spend the output with any lock time and sequence number: at every height and time a node accepts the transaction if and only if something is paid, no more than the output is worth, the transaction is new and not too big, and the lock time is 0 or has passed or the sequence number is 0xffffffff; afterwards the output is gone and what was agreed is unspent.", "quantifier": "every list of keys, refund, set of updates and taken transactions, amount, lock time, sequence number, height and time, ledger, history of transactions, hash function and signature check", "why_tests_cant": "the claim is over all transactions anyone could make, at all heights and times, and all histories of a node", "anchors": ["script/RedeemScript.go: GetRedeemScript", "transaction/Transaction.go: AddInput, AddOutput, ApplyUnlockingScript, ToBytes", "transaction/SignatureHash.go: GetInputSignatureHash", "transaction/input/Input.go: Input"]}
{"id": "C143", "title": "Notarising: a record that a document existed", "statement": "Somebody publishes the SHA256 of a document (and anything else) in data outputs of a payment made with the library. Nothing fails; a node accepts the signed transaction exactly if the payment can be made; and for every block that contains it, whatever else it contains, there are an index and branches with which NewFromBytes, IsData, DecodeParts, GetTxID and MerkleRootFromBranches accept its bytes as a certificate for the document against the root in the header made with BuildBlockHeader. For every block: whatever bytes, index and as many branches as its tree has levels pass for a document, the hash of this document is an item of a data output of a transaction with these bytes in the block, or two different strings with the same hash are at hand; so if what is recorded are the hashes of some documents, only these pass or there is a collision. Without the number of levels a certificate passes for a transaction that is in no block, if a transaction of 64 bytes whose second half is its hash is in the block.", "quantifier": "every document, payment, set of data items, block, header, certificate (bytes, index, branches), hash function and signature check", "why_tests_cant": "the claim is over all blocks and all certificates anyone could make", "anchors": ["transaction/output/Output.go: NewOpReturnParts", "script/Script.go: IsData", "script/OpPushdata.go: DecodeParts", "transaction/Transaction.go: NewFromBytes, GetTxID", "block/GetMerkleBranches.go: MerkleRootFromBranches, GetMerkleBranches", "block/BuildBlockHeader.go: BuildBlockHeader"]}
{"id": "C144", "title": "Payments from separate coins, in any order", "statement": "Payments are made with From, AddOutput and PayTo from coins of which none is spent by two of them, and each is signed. Nothing fails; if none is too big and no other transaction has the same hash, a node accepts the bytes ToBytes gives in every order, whatever the order in which they were made, and afterwards all the coins are gone and what every payment pays is there, under its own id; or two of them have the same hash. More generally, transactions that anybody made, that a node accepts each when it comes first, and of which no two spend the same output, are all accepted in every order, and the unspent outputs afterwards do not depend on the order. Two that do spend the same output are never accepted one right after the other.", "quantifier": "every number of payments, their coins, amounts and receivers, every order, ledger, hash function and signature check, and every set of transactions of others", "why_tests_cant": "the claim is over all orders of any number of transactions", "anchors": ["transaction/Transaction.go: From, PayTo, AddOutput, ToBytes, GetTxID", "transaction/signature/InternalSigner.go: SignAuto"]}
{"id": "C145", "title": "Encrypted notes in transactions", "statement": "Somebody encrypts texts with Encrypt and publishes the ciphertexts in data outputs (NewOpReturnParts) between the calls of a payment made with the library. Nothing fails; a node accepts the signed transaction exactly if the payment can be made; and whoever has the cipher and applies NewFromBytes, IsData, DecodeParts and Decrypt to its bytes reads exactly the texts, in order. Whatever others publish, the reader panics only where a reader of data does (C131), never in the decryption. Deviations: the ciphertexts are not authenticated, so who knows the text of a note of at most 12 bytes can publish one that is read as any other text of that length; and Decrypt works in place on parts that are views of the script, so after a note has been read the transaction in the reader's memory contains its base64 text in the clear where the ciphertext was.", "quantifier": "every 16-byte block cipher, payment, list of notes with their random initialisation vectors, transaction of others, script in memory", "why_tests_cant": "the claim is over all notes and payments, and over the memory of every script that could contain a note", "anchors": ["crypto/Encryption.go: Encrypt, Decrypt", "transaction/output/Output.go: NewOpReturnParts", "script/Script.go: IsData", "script/OpPushdata.go: DecodeParts", "transaction/Transaction.go: NewFromBytes, ToBytes"]}
