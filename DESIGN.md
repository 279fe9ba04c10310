# Formal model of openHiTLS in Lean 4: design

(The plan was written before the proofs; entries are rewritten as modules are finished.)

## Method

* One Lean module (or a small group: `Model`, `Spec`, `Theorems`) per C source file, under `lean/Verif/`.
* C functions become small total Lean functions. Every definition cites the file and the lines it models.
* Fixed-width integers: `BitVec w` (or `UInt w`) where bits matter, `Nat` with explicit `% 2^w` where carries matter.
* Out-of-range memory access, division by zero and signed overflow are *outcomes* (`none` / an error constructor), never silently totalised; theorems prove absence or exhibit the witness.
* External primitives (block ciphers inside modes, compression functions inside hash streaming, digital signatures in X.509, IO, entropy sources) are universally quantified parameters: theorems hold for every such function.
* Every property theorem sits in a `Theorems`/`Props` part whose statement mentions only the modelled API function and a small independent specification. Beside it there is an `example` showing that its hypotheses are satisfied by a concrete non-trivial case.
* When the code does not satisfy the property, the negation is proved with a concrete witness and the strongest true part is proved under the suffix `_partial`.

## Trusted base

* Lean 4.33.0 kernel; axioms `propext`, `Classical.choice`, `Quot.sound` only. No `sorry`, no own axioms, no `native_decide`/`bv_decide`.
* Hand translation of C into Lean (the cited line ranges), including the reading of macros and configuration (`HITLS_*` features enabled unless stated).
* Not modelled: assembly implementations, OS calls, allocator, threads' memory model (locks are assumed to give atomicity), timing/side channels, provider plumbing.

## Plan per property

* **C01 DTLS anti-replay: no record is accepted twice** – model: Bitmap+top model of rec_anti_replay.c with 64-bit arithmetic. Proof: Invariant by induction over the list of operations, relating bitmap bits to the set of accepted numbers; refinement.
* **C02 TLS record write never reuses a sequence number under one key** – modelled: TLS branch of rec_write.c (REC_TlsWrite/RecordWrite and the stream send loop) as a transition system over (sequence number, isWrapped, key generation, pending bytes); record protection and IO results are arbitrary parameters (`Verif/Tls/RecWrite`). Proof: invariant over all histories: (generation, number) of protected records strictly increases and bytes on the wire are the concatenation of protected records.
* **C03 AEAD per-record nonce and AAD are injective and follow the RFCs** – modelled: AeadGetNonce, AeadGetAad and the TLS1.3/DTLS1.3 variants (rec_crypto_aead.c) on byte lists (`Verif/Tls/Aead`). Proof: equality with RFC 5288/7905/8446 formulas written independently; injectivity of xor and of big-endian encoding.
* **C04 DTLS handshake reassembly is exact** – modelled: SetReassBitMap, IsReassComplete, ReassNodeNew, ReassembleMsg, HS_ReassAppend, HS_GetReassMsg (hs_reass.c), DtlsParseHsMsgHeader/CheckHsMsgLen (parse.c), DtlsDisorderMsgProcess, DtlsGetCompleteHandshakeMsg, DtlsCheckAndParseMsg (hs_state_recv.c) in `Verif/Tls/Reass`. Out-of-bounds accesses are an outcome. Not modelled: allocation failure, alerts, SCTP, repeated-ClientHello reset, renegotiation state. Proof: bit-level lemmas for the bitmap, simulation between the queue and a list-of-fragments specification, induction over histories. A fragment of length 0 would make SetReassBitMap run off the bitmap (end = off-1 wraps); the header parser's zero-length test is what prevents it.
* **C05 CBC record padding check accepts exactly the valid paddings** – modelled: padding and MAC-offset mask arithmetic of rec_crypto_cbc.c on 32-bit words (`Verif/Tls/Cbc`). MAC and cipher are parameters. Proof: mask algebra, then equivalence with the list specification of valid padding, for every record length.
* **C06 Key block is partitioned without overlap** – modelled: key-block slicing for client/server write keys (`Verif/Tls/KeyBlock`). Proof: take/drop algebra; slices are disjoint and cover the block in RFC 5246 order.
* **C07 Base64 one-shot encode/decode round trip** – model: Encoder loops and decoder loops over byte lists. Proof: Strong induction on length (3-byte groups).
* **C08 Base64 decoding rejects every malformed string** – model: Same decoder. Proof: Characterise accepted inputs by induction.
* **C09 Base64 streaming equals one-shot** – model: Streaming contexts as state machines. Proof: Invariant over update histories: state = function of the concatenated input.
* **C10 ASN.1 length decoding never leaves the buffer and inverts encoding** – modelled: BSL_ASN1_DecodeLen, GetCompleteLen, DecodeTagLen, DecodeItem, GetOctetNumOfUint, GetLenOctetNum, EncodeNumber, EncodeLength, GetEncodeLen, the header part of EncodeItem (`Verif/Bsl/Asn1/Model`, 32/64-bit words). Specification: X.690 8.1.3 as an inductive predicate. Proof: acceptance is characterised by an iff for every buffer; bounds, minimality and round trip follow.
* **C11 ASN.1 INTEGER encode/decode round trip and DER minimality** – modelled: GetContentLenOfInt, EncodeInt, ProcessIntegerType and its call in BSL_ASN1_ProcessNormal, ParseInt, BSL_ASN1_EncodeLimb (`Verif/Bsl/Asn1/Model`). Specification: two's complement value, X.690 8.3.2 legality. Proof: induction on leading zeros; uniqueness of legal contents.
* **C12 UTF-16/BMP/UTF-8 string conversion is exact** – modelled: IsUnicodeScalarValue, g_utf8FormTable, CodePointToUtf8, EncodeCodePointToUtf8 (sizing and writing pass into an explicit buffer), ConvertToUtf8String, GetAndValidateCharSize, BSL_ASN1_ToUtf8String (`Verif/Bsl/Asn1/Utf8Model`); calloc failure is not modelled. Specification: Lean core's `Char` and `String.utf8EncodeChar`. Proof: induction over characters, both passes.
* **C13 TLV pack/parse round trip and bounds** – modelled: all of tlv.c (`Verif/Bsl/Tlv`), with wrapping 32-bit subtraction. Specification: wire format of a TLV sequence. Proof: induction over the loop; success characterised by iff.
* **C14 Linked list operations refine a sequence** – model: Bsl/List/Model.lean, nodes in a heap with prev/next pointers, each function of bsl_list.c/bsl_list_internal.c/bsl_list_ex.c as pointer surgery; allocation results are inputs, a NULL/dangling dereference or a runaway loop is the outcome none. Proof: representation relation (doubly linked segment, pairwise different nodes, first/last/count) preserved by each operation; run_refines by induction over the history against Spec.step on a sequence with cursor.
* **C15 Hash table is a finite map at every size** – Model of bsl_hash.c (linear hashing: bucket index, split, level change, resize check, insert/put/find/erase/clear/iterators) with bucket slots that are uninitialised until split. Invariant Inv (level geometry, home bucket of each entry, keys pairwise non-matching); refinement of every history to a finite map (run_refines), with the exact resource limits; iteration as the list of all entries (iterate_all); erase returns the successor (erase_next). Hash codes are naturals below 2^32 by type of the function; user copy/free callbacks are not modelled.
* **C16 AVL tree is a balanced finite map** – Model of avl.c with stored heights, NULL dereference as a distinct outcome and the height cap of 64; rebalancing lemmas keep the in-order list and restore balance; deletion by maximum of the left subtree; run_refines over all allowed histories of insert/put/delete/search against a finite map, with order, balance and logarithmic depth.
* **C17 Per-thread error stack keeps the last 20 errors** – Model of err.c on top of the AVL model: per-thread ring of 20 slots with marks; every call is one atomic step because it holds the global lock. Ring-to-list abstraction Abs; run_refines for every interleaving; pushes_last20; others_untouched; stuck_iff and hang_reachable give the exact non-termination.
* **C18 Date/UTC-second conversion is exact and monotone** – Model: Verif/Bsl/Time/Model.lean, sal_time.c function by function over natural-number fields (types only matter for the bounds, stated as hypotheses). Spec: Spec.civil, the n-th day after 1970-01-01 by stepping nextDay with monthLen. Proof: the day number computed by the code grows by one at each nextDay step, is strictly monotone for the lexicographic order, hence injective. gmtime_r is a parameter with specification Spec.IsGmtime. Not modelled: the registered-callback variants, BSL_SAL_SysTimeGet, the 32-bit time_t build.
* **C19 DRBG never outputs from an unseeded, failed or over-used state** – Model: Crypto/Drbg/Model.lean, the state machine of drbg.c with a ghost trace of seedings and outputs; entropy source, mechanism, clock and process ids are inputs. Proof: invariant over all histories of calls and forks relating state, reseed counter and forkId to the trace; `Spec.Good` is a predicate on the trace only. Partner theorems: exact output length, liveness when nothing fails, counterexample when a process id comes back.
* **C20 Entropy health tests fire exactly at the cutoff** – Model: Crypto/Health/Model.lean (es_health_test.c, NsRead loop). Proof: induction on the sample stream; the state after a stream is described by the stream's last run and the open window. Specs talk about the stream only.
* **C21 Big-number limb arithmetic is exact** – Word macros of bn_bincal.h (half-word multiplication, three-word accumulation, Knuth's two-by-one division) modelled on BitVec (h+h) for every half-word size h, then the vector loops of bn_bincal.c / noasm_bn_bincal.c as list recursion. Theorems: each function returns the exact integer result with carry/borrow (positional value of the word list); BinDiv (Knuth D with the TryDiv correction and the add-back step) returns quotient and remainder of every dividend and every divisor with non-zero top word. Reads outside an array are none. Not modelled: assembler versions, loop unrolling.
* **C22 Modular exponentiation and Montgomery arithmetic are exact** – Model: Bn/Mont.lean (Inverse, ReduceCore, MontMul/Sqr/Enc/Dec, window exponentiation, sign, BN_ModExp with both branches) over the limb models. Proof: ReduceCore keeps x + Qm and shifts one word per round; a residue relation Rep carries R*z mod m through multiplications; window loop invariant r = R*a^(e >> base).
* **C23 Fast modular reduction for NIST and SM2 primes is exact** – Model `Verif/Crypto/Bn/NistModel.lean` (bn_nistmod.c, 64-bit words): the word lists the code assembles from 32-bit halves, the chains of vector additions and subtractions with their signed carry, the tables of multiples of the primes, the two final corrections, the size dispatch and the quick sum and difference. A table index or input word out of range is `none`. Proof `NistProof.lean`: the chain's value is carried as an integer through each step; it differs from the input by an explicit multiple of the prime (linear in the 32-bit halves), it bounds the carry by the table's size, and a correction lemma generic in the prime and the table shows that the two corrections reduce it. P-224 keeps its carry in the top word in two's complement and is proved apart; P-521 is a shift and one conditional subtraction, correct below p^2, with a witness above it. `NistProps.lean` states the results against the primes written as in FIPS 186-4 and GB/T 32918.5. Not modelled: 32-bit words (there the code calls BN_Mod), the comba multiplications (see C57), aliasing of the result with an operand.
* **C24 CTR mode is chunk-independent and self-inverse** – Model of MODES_CTR_Crypt with its leftover-keystream buffer (Crypto/Modes/Stream.lean), over an abstract 16-byte block permutation. Proof: every byte of the output of any update sequence is the message byte xor a byte of E(IV + j); counter blocks are distinct; hence chunk independence and self-inversion.
* **C25 CBC/CFB/OFB/ECB/XTS decrypt inverts encrypt** – OFB and CFB-1/8/64/128 as byte transducers (Stream.lean), CBC and ECB with the update cache (Block.lean), XTS with ciphertext stealing and both tweak doublings (Xts.lean). Specifications are indexed block equations from SP 800-38A / IEEE P1619. Proof by induction over blocks and update calls.
* **C26 Block padding removal inverts padding and rejects everything else** – MODES_CipherUpdate/Final with padding and un-padding, including the constant-time check accumulators in 32-bit arithmetic. Proof: encryption pads as specified for every chunking; decryption accepts exactly well-padded ciphertexts and returns the message.
* **C27 GCM computes GHASH of AAD and ciphertext** – modelled: `modes_gcm.c` (key, IV, AAD, update, tag, final, control) and `noasm_ghash.c` (table generation and block loop) over an abstract block cipher. Proved: table method = bitwise GF(2^128) product by linearity; streaming invariant by induction over phases and chunks; tag, round trip, limit, counter uniqueness, tag verification. Not modelled: assembler GHASH/AES-GCM, context duplication.
* **C28 Hash streaming equals one-shot with correct padding** – **Hash streaming.** `Verif/Crypto/Md`: Update/Final of SHA-224/256, SHA-384/512, SHA-1, MD5, SM3 with block buffer and bit counters, compression function a parameter; theorem: any division into pieces gives the one-shot padded digest below 2^64 (2^128) bits, refused at the limit. SHA-2 block functions (`Sha2.lean`, C version) proved equal to FIPS 180-4 (`Sha2Spec.lean`), constants characterised as fractional parts of roots of primes. Not modelled: assembly versions, multi-buffer SHA-256, SHA-3.
* **C29 HMAC equals its RFC 2104 definition for every key length** – Model hmac.c over an abstract hash method table and the eal_mac.c state machine (Mac/Model). The law of a hash object (Mac/Proof.Lawful) is proved for every Merkle–Damgård hash from C28's streaming theorems (ofStream_lawful). hmac_session: for every history of init/update/final/reinit/deinit/dup the answers are those of an RFC 2104 session. Left out: allocation failures, ctrl/SetParam, provider lookup, SHA-3.
* **C30 HKDF, PBKDF2 and TLS1.2 PRF output the specified stream for every length** – Model hkdf.c (Extract, Expand, HKDF), pbkdf2.c (U1, Un, CalcT, GenDk, Derive) and kdf_tls12.c (PHASH, Derive) over an abstract MAC object (Kdf/Model). Loop invariants: after j rounds the output is the first min(len, j*h) bytes of the RFC's block stream. Prefix and length property from the specification alone. Null pointers, allocation and parameter setting left out.
* **C31 ChaCha20 and Poly1305 equal their definitions** – Model chacha20.c (block function on the 16-word state, cached key stream, block limit), noasm_poly1305.c (32-bit limbs with 64-bit products, reduction, final subtraction), modes_chacha20_poly1305.c (sessions). Spec.lean is RFC 8439 written separately: 4x4 matrix column/diagonal rounds, Horner evaluation mod 2^130-5, AEAD construction. Proof: in-place quarter rounds equal simultaneous rounds; key stream position invariant by induction over calls; no-overflow lemmas for each carry and an exact identity modulo p; tag acceptance iff equal.
* **C32 RSA paddings: encode is accepted, decode accepts only well-formed blocks** – Model (`Crypto/RsaPad/Model.lean`): MGF1, PSS, ISO 9796-2, PKCS#1 v1.5 type 1 and 2 (with the TLS decoder) and OAEP from rsa_padding.c, over abstract hashes of fixed output length. Spec.lean holds the RFC 8017 encodings written independently (DigestInfo built from DER). Proved: PSS verification accepts exactly the encodings under some salt of an admitted length; type 1 accepts exactly one block and never for two digests; the branch-free OAEP and type 2 decoders deliver the message of an RFC-encoded block or report failure leaving the buffer (TLS variant: zeros); round trips. Not modelled: the RSA primitive, allocation and hash-provider failures, timing.
* **C33 ML-KEM arithmetic: reduction, compression, transforms, encodings, sampling** – model: `Verif/Crypto/Mlkem` (`Model`, `CodecModel`): Barrett and Plantard reduction on wrapped machine integers, the seven-layer transforms, compression, packing, sampling. Proof: each layer keeps an explicit bound and a residue invariant; the transform is shown to be evaluation modulo X^2 - gamma_i and products are related to the quotient ring R_q of Mathlib.
* **C34 ML-DSA rounding, hints and packing** – model: `Verif/Crypto/Mldsa`: Model.lean (parameter table, modQ, Decompose, UseHint, Power2Round, norm check, MakeHint body, hint encoder and decoder with out-of-bounds reads as an outcome), CodecModel.lean (all bit packings), KeyModel.lean (layouts of public key, secret key, signature). Spec.lean restates FIPS 204 sections 2.3, 7.1, 7.4. Proof: `decompose_fips` etc. by linear integer arithmetic over all residues, hint recovery by case analysis on the two rounding cells, the hint decoder by induction over rows with an exact characterisation, packings bit by bit with the width-generic lemmas of ML-KEM. Not modelled here: hashing and sampling; NTT and signing are C62.
* **C35 Stateful hash-based signing never reuses an index** – model `Verif/Crypto/Xmss/Model.lean`: both parameter tables (77 rows), key context, DupCtx, SetPara, Gen, SetPrvKey, GetPrvKey, SetPubKey and Sign for XMSS and XMSS^MT; the hash, tree and BDS computations are inputs that may deliver any bytes or fail with any code at each step. `Spec.lean`: SafeInstall / Disciplined. Proof: invariant over histories of a world of contexts (used indices below the current one, live contexts hold distinct seeds, uses duplicate-free, released signatures well formed); the tables are checked row by row by kernel evaluation. Not modelled: contents of the BDS tree states, the tree signature itself (see C60).
* **C36 AES and SM4 are the standards' block ciphers, and decryption inverts encryption** – model: SM4 key expansion, block function and the block loop over a memory (in-place and overlapping-forward placement); AES key expansion, encryption and decryption of both C builds with all their tables. Specification: FIPS 197 over a 4x4 byte array with the S-box given as inversion in GF(2^8) and an affine map, key schedule as a recurrence; GB/T 32907 likewise. Proof: table facts over all 256 indices in the kernel, then equational reasoning on words, induction over rounds and over the schedule (invariant: the list so far is a prefix of a schedule), uniqueness of the schedule, inverse of MixColumns by linearity. Not modelled: assembly back ends.
* **C37 Stream records are delivered exactly, whatever the fragmentation** – model: `Verif/Tls/RecRead/Model.lean`: `StreamRead` with its move loop and read loop on an explicit buffer, `RecBufResize`, `TlsCheckRecordHeader` and its helpers, `TryReadOneTlsRecord`, creation and release of the buffer, `EmptyRecordProcess`, `ProcessDecryptedRecord`; the transport is an arbitrary list of pieces, interruptions, end of stream and errors. Proof: an invariant of the positions and a relation between the buffer, the events and the flat stream, carried through the loops by induction and through histories of calls; the result of a call is characterised by the inductive relation `Spec.Next` on the bytes at hand.
* **C38 The handshake only completes after a conforming message sequence** – **Handshake order** (`Verif/Tls/Order`). Both roles of the stream handshake state machine are modelled as one step function over received messages, ChangeCipherSpec records and sends; results of parsing and of every cryptographic check are inputs. The specification (`Spec.lean`) is a grammar of flows that does not mention states. Proved by an invariant per state (conversation so far = prefix of a flow) preserved by every step; a second invariant covers the ChangeCipherSpec flags. Not modelled: DTLS, renegotiation, post-handshake authentication, KeyUpdate, alerts, blocking I/O.
* **C39 A certificate speaks for an identity exactly under the name matching rules** – Modelled (Verif/Pki/Host): the label matchers with every array read checked, StrcaseCmp, SAN and CN selection, the URI and SRV parsers, X509_VerifyIp and the dispatcher, on byte strings. Proved: exact characterisations against Spec.Single / Spec.Partial / Spec.CertMatches / Spec.Uri / Spec.Srv. Not modelled: decoding of the certificate into its names, locales, allocation failure.
* **C40 X.509 path validation decision** – Model (Verif/Pki/Path/Model.lean) of HITLS_X509_CertVerify: issuer search (trust store, CA directories growing the store, peer list), X509_BuildChain with its 100-step bound, VerifyParamAndExt, X509_CheckExt, GetCheckTime, VerifyCrl with the lite CRL check, X509_VerifyChainCert, with an arbitrary callback. Spec.lean states Conforms by positions in the path. Proved: acceptance iff a path is built and it conforms (callback never overruling), the anchoring/linking/termination facts for any callback, completeness for unambiguous paths. Parameters: certificate parsing, signature verification, key strength, non-lite CRL engine (HITLS_X509_CheckCertCrl), X509_CheckHost.
* **C41 Session serialisation round trip** – model: `Verif/Tls/Session/Model.lean`: all encoders and decoders of session_enc.c and session_dec.c on top of the TLV model, with wrapping 32-bit sizes and an explicit out-of-buffer outcome; the certificate parser is an arbitrary predicate. Proof: both object loops are related to a sequence of typed objects (`Spec.wire`), by induction over the table of types; the decoder is characterised exactly, and the round trip follows from the characterisation.
* **C42 Constant-time selection primitives compute their specification** – modelled: BSL ct* primitives (bsl_bytes.h / ct macros) on BitVec 32 (`Verif/Bsl/Bytes`). Proof: bit-vector case analysis for all operands.
* **C43 IP address text parsing** – `Verif/Bsl/Ip`: the four scanners as structural recursions over the text; `Spec.lean` gives the grammar of dotted decimal and of RFC 4291 texts as small inductive relations. `parseIp_iff` is an equivalence (soundness and completeness), proved by boundary-state lemmas of the hex scanner; `parseIp_len` covers the length output. Not modelled: what a refused call leaves in the output buffer.
* **C44 Memory UIO is a FIFO byte queue** – `Verif/Bsl/UioMem`: the buffer as an optional byte list with length, capacity and read index; compaction, the growth rule and the allocator's uninitialised contents are modelled; access outside a block is `none`. `run_refines` by induction over the history against a byte queue, `fifo` for the conservation law read ++ pending = written. Not modelled: the pointer handed out by the get-pointer control, the byte counters of the UIO layer.
* **C45 PEM: decode inverts encode, the parser is complete and bounded** – model (Verif/Bsl/Pem/Model.lean): BSL_PEM_IsPemFormat, the memory search, BSL_PEM_GetPemRealEncode, GetAsn1Encode, EncodeAsn1ToPem, DecodePemToAsn1, GetSymbolAndType with its table, and the bundle loop HITLS_X509_ParsePem, on offsets into the caller's memory with reads outside it as a distinct outcome. Specification (Spec.lean): first occurrences, marker shape, 64-character lines, RFC 7468 text. Proof: induction over the search loop, over the lines and over the bundle; base64 by the theorems of the Base64 module. Allocation failure and NULL arguments are not modelled.
* **C46 Key wrap computes RFC 3394/5649 and unwrap is its exact inverse** – Modelled (Verif/Crypto/Wrap): all of modes_aes_wrap.c's wrap/unwrap paths on byte arrays with checked accesses, the 32-bit step counter, constant-time comparisons and clearing; the block cipher is any permutation of 16-byte blocks. Proved: refinement of RFC 3394 / RFC 5649 written over registers, exact acceptance of unwrap, no overrun. Not modelled: key schedule, allocation, cipher failure codes.
* **C47 Object identifiers: text and DER conversions are exact, the object table and registrations are consistent** – model (Verif/Bsl/Oid/Model.lean): both conversions byte by byte with their fixed-size arrays, the whole built-in table (195 rows, generated from the source), the binary search, the linear searches and BSL_OBJ_Create over a registry. Specification (Spec.lean): positional digits, subidentifiers, dotted texts. Proof: induction over the octets, the characters and the history; the order and distinctness of the table by kernel evaluation over the whole table.
* **C48 Version negotiation and downgrade protection** – Model: masks and min/max of a configuration (config.c), the server selection of recv_client_hello.c with the loops over the version table and the client list, the downgrade marker, the client checks of recv_server_hello.c and the dispatch on the version. Specification (Spec.lean): sets of enabled versions, ranks, what a ClientHello offers. Config calls by induction over the call history (invariant Describes), server by a characterisation of the result (iff), the two sides composed for downgrade protection and agreement. Not modelled: QUIC mode (hypothesis), second ClientHello after HelloRetryRequest, the security callback (arbitrary predicate), parsing.
* **C51 DTLS record write never reuses a record number under one key** – modelled: DTLS branch of rec_write.c in `Verif/Tls/RecWrite`. Status partial: two witness theorems show the code reuses a number: dtls_nonce_reuse_after_deref_failure (RecDerefBufList failing after a successful send leaves the number unchanged, record.c:193 / rec_write.c:262) and dtls_sealed_twice_after_busy (record re-sealed under the same number after a busy send). The _partial theorem proves uniqueness for histories without those two events.
* **C49 Big-endian integer encoding round-trips** – modelled: BSL_ByteToUint16/24/32/48/64 and BSL_Uint*ToByte (`Verif/Bsl/Bytes`, `Verif/Common/Endian`). Proof: arithmetic on positional notation for any width.
* **C50 TLS 1.3 inner plaintext framing is invertible** – modelled: TLS1.3 inner plaintext append and strip (`Verif/Tls/Inner`). Proof: list lemmas on trailing zeros, for every content and padding length.
* **C52 Adding microseconds to a date is exact** – Same model as C18. Proved under us + microSec < 2^32; the negation outside is proved with a witness (addUs_wraps).
* **C53 UTCTime and GeneralizedTime text round-trips** – Model: Verif/Bsl/Asn1/PrimModel.lean (ParseTime, EncodeTime and helpers). Spec: Spec.timeText, the decimal digits of a date, and Spec.Valid of C18. Proof: exact characterisation of accepted texts by digit pairs.
* **C54 BOOLEAN, BIT STRING and BMPString contents round-trip** – Model: PrimModel.lean. Proof: direct; bit positions of the last byte via shift lemmas.
* **C55 ASN.1 list decoding visits exactly the items of the buffer** – Model: PrimModel.lean, the loops of the list decoder with the callback as a state transformer. Spec: Spec.IsList (concatenation of items), Spec.visit/Spec.Run (in-order visits). Proof: well-founded induction on the buffer, using decodeItem_iff of C10.
* **C56 Big numbers are the integers** – Model: Bn/Api.lean, word vectors with a sign. Proof: each function against Int through the value of the vector, with normalisation as part of the result.
* **C57 Fast multiplications are exact** – Model: Bn/CombaModel.lean: the unrolled functions as tables of their lines, run by an interpreter of the macros; the recursion with the remaining workspace as a parameter (an access beyond it is none). Proof: CombaProof.lean: the three accumulators keep the partial sum (at most 8 additions per column, so the highest does not wrap), the columns of each table are the product by ring; induction on the size for the recursion, with the carry of the combination bounded by 2; the room 4*8*2^k covers a size up to 8*2^k. Statements in CombaProps.lean.
* **C58 Greatest common divisor and modular inverse** – Model: Bn/Gcd.lean with fuel bounded by the size of the smaller operand; proof by the Euclidean invariants c*x = a, d*x = b (mod m) and gcd(a,b) = gcd(x,m).
* **C59 Textual IP addresses are accepted exactly when well formed** – Modelled (Verif/Bsl/Ip): all of sal_ip_util.c, character by character. Proved: SAL_ParseIp accepts exactly the grammar of Spec.V4 / Spec.V6 (RFC 4291) up to 45 characters and returns the denoted bytes. Simplified: the copy loops of ExpandSegments are list concatenations whose length is proved.
* **C60 Hash-based signatures verify** – Model of WOTS+ (hbs_wots.c), tree and hypertree signing and verification (hbs_tree.c), FORS (slh_dsa_fors.c), the SLH-DSA core and the XMSS/XMSS^MT verification and non-BDS signing path, with addresses as records and the hash functions as arbitrary partial functions. Proved by induction over chains, chain numbers, heights, layers and FORS trees: verification ends in the root computed by key generation; a separate specification with explicit addresses (Hbs/Spec.lean) gives the values of nodes, chains, signatures and the FORS key; WOTS+ digits form an antichain; digits are the bits of the digest; the message representative is injective. Not modelled: the BDS state, the optimised chain functions, the hash functions themselves, cleansing of buffers.
* **C61 ML-KEM: both sides derive the same key, bad ciphertexts are rejected implicitly** – model `Verif/Crypto/Mlkem/KemModel.lean` (byte level: key generation, encryption, decryption, encapsulation, decapsulation, key import) over arbitrary hash functions. Proof: the code's arrays are related to elements of R_q (`Pke`, `Pke2`), decryption of an encryption is message + noise by ring algebra, bytes by uniqueness of the packing. The chance that the noise exceeds the bound is a statement about distributions and is not expressed; the theorem is conditional on the exact noise polynomial of the run. Not modelled: assembler back ends, the SHA-3 functions themselves, allocation.
* **C62 ML-DSA key generation, signing and verification** – model: `Verif/Crypto/Mldsa/NttModel.lean` (Plantard products, 256-entry table, forward and inverse transforms with 32-bit wrap-around), `SignModel.lean` (rejection samplers with block and index state, SampleInBall, ExpandA/S/Mask, KeyGen, public key derivation and consistency check, one signing round, the signing loop with its 16-bit counter, verification, message encoding). Proof: each transform layer computes evaluation modulo X^(2len)-gamma without overflow, so the eight layers are evaluation at the 256 roots and the inverse undoes it; products are therefore ring products; samplers keep the invariant 'the array holds the accepted candidates so far'; a key pair satisfies t = A s1 + s2, and then the verifier's A z - c t1 2^d has the signer's high bits by the hint lemma of C34. Specification: FIPS 204 Algorithms 6, 7, 8, 14, 15, 29-34, 41 in `SignVer.lean`, `SignFips.lean`, `SignProps.lean`.
* **C63 Elliptic-curve arithmetic is the group law** – Model: `Verif/Crypto/Ecc/Model.lean`. The straight-line code of ecp_nist.c is a list of calls on named numbers, taken line by line from the source; `run` executes it and stops at the first failure, and `aliased` renames the operand's numbers when the result is the same object. The field routines are a parameter (`Fld`); `Bn.lean` instantiates it with the library's numbers (C23, C56, C58) for EC_METHOD_NIST and EC_METHOD_SM2_NIST, 64-bit words. Specification: Mathlib's group of points of the Weierstrass curve with a = -3; `Represents` says that a triple is a Jacobian representation. Proof: one refinement lemma from the calls to the field, then the formulas against Mathlib's addition law by field identities; ladders and windows by induction with the invariant r = (k >> i) P, resp. 2^B r + rest = k1 G + k2 P; recoding by the invariant code + carry 2^base = k mod 2^base. Primality of the modulus is a hypothesis, proved for P-224 (Lucas certificate) and P-521 (Lucas-Lehmer). The window multiplications need that no multiple 1..30 of the point is infinity (true in groups of prime order > 30, `noSmallOrder_of_prime`); `mulFast_small_order` shows the failure otherwise. Not modelled: assembler and table methods (ecp_nistp*.c, ecp_sm2.c), Montgomery method, allocation failures, Brainpool.
* **C64 Big-number conversions to and from bytes, hexadecimal and decimal are exact** – Model: `Verif/Crypto/Bn/ConvModel.lean`, with 64-bit words: the loops over words, bytes and digits of bn_utils.c, with reads outside the number and writes beyond the estimated length as distinct outcomes. The allocation of the result objects and the array conversions are not modelled. Proof: induction over words, bytes and rounds of digits, on the positional value of a list of digits (`Spec.numeral`); the length estimate 0.303 b + 1 is shown to bound the decimal digits of a b-bit number for every b by comparing powers of ten and of two.
* **C65 ECDSA and SM2 sign and verify exactly as specified, and every signature verifies** – Model: `Verif/Crypto/Sig/Model.lean`, on top of the models of the big numbers (C29 ff.) and of the curve (C63): the conversion of the message, the rounds of signing with the draws of the random generator as input, verification. Hashing, the ASN.1 encoding of the signature, key generation and allocation are not modelled. Spec: `Sig/Spec.lean` states FIPS 186-5 and GB/T 32918.2 with points of Mathlib and natural numbers. Proof: each step is the number it should be; the group order is prime, so inverses exist and multiples of the generator are reduced modulo it. `Sig/P256.lean` proves that the hypotheses hold for P-256 (primality certificates, order of the generator).
* **C66 The ECDH shared key is the specified coordinate and both parties obtain the same** – Model: `ecdhShare` in `Verif/Crypto/Sig/Model.lean`. Proof: the multiplication of C63, the fixed-length bytes of C64, and commutativity of the scalars.
* **C67 Simultaneous exponentiation is exact** – `Verif/Crypto/Bn/ExpMul*` models `BN_MontExpMul` with its sliding windows over both exponents (`GetOddLimbBin`, `MontExpOddReady`, `GetFirstData`). Proved: the invariant of the interleaved loop gives the exact product of powers. Not modelled: allocation.
* **C68 DSA signing and verification follow FIPS 186-4** – `Verif/Crypto/Dsa/*` models `DSA_Bits2Int`, `CalcSValue`, `SignCore`, `VerifyCheckSign` and `VerifyCore` on the big-number models. Proved against a specification in natural numbers. The random draws are arbitrary numbers from 1 to q-1 (`RandRangeQ`). Not modelled: the hash, key and parameter generation, allocation.
* **C69 Signature encoding is DER and decoding is strict about structure** – `Verif/Crypto/SigDer/*` models `CRYPT_EAL_EncodeSign`, `CRYPT_EAL_DecodeSign`, `CRYPT_EAL_GetSignEncodeLen` and the template decoder loop with its layer ends for mandatory items. Proved on the length and INTEGER theorems of the ASN.1 area and the conversions of C64. Not modelled: optional, ANY and CHOICE items of templates, allocation.
* **C70 RSA public and private operations compute the powers, in every history** – `Crypto/Rsa`: the public operation, the private operation with and without Chinese-remainder numbers, MontMulCore, the computation of a missing public exponent and the blinding with its state. Proved by Fermat's theorem and Garner's recombination, with the invariant that the second blinding number undoes the private power of the first, over every history. blind_stuck, no_exponent and qInv_overflow show what happens at the boundary. Not modelled: key generation, memory exhaustion, RSA_BSSA.
* **C71 RSA keys: what is accepted is exactly known, and accepted RFC keys work** – `Crypto/Rsa/Key*`: the setting of private and public keys with all their checks, the derived numbers, and key generation from two given primes with the check of the pair. The set of accepted inputs is proved exactly for each choice of members, and an accepted key of RFC 8017 meets the hypotheses of C70. Not modelled: the search for the primes (primality tests are probabilistic), memory exhaustion, contexts with parameters set before.
* **C72 Diffie-Hellman: both parties get the same secret, written in full length, and only valid peers are accepted** – Diffie-Hellman. Model `Crypto/Dh/Model.lean`: parameters (`setPara`), keys (`setPrv`, `setPub`, `getPub`), both ways of generation with the drawn numbers as input, the shared key with the in-place padding loops on the caller's buffer (an access outside is a distinct outcome). Specification `Crypto/Dh/Spec.lean` in natural numbers. Not modelled: allocation, the tables of the standard groups except one used as an instance, BSL_PARAM wrappers.
* **C73 RSA blind signatures: the unblinded signature is the signature of the message, and the state of the requester is known after every history** – RSA blind signatures. Model `Crypto/Rsa/BssaModel.lean` on top of the RSA primitives of C70: the context's factor as state, also after errors; histories of set, blind and unblind. Specification `Crypto/Rsa/BssaSpec.lean`. The result of `PssPad` is an input, the hash and the padding type check are not modelled.
* **C74 Paillier: keys, encryption, decryption and addition of ciphertexts** – model of key generation from given primes, of setting keys, encryption, decryption and addition on the modelled numbers (Crypto/Paillier). Specification: the scheme on natural numbers (`Encrypts`, `Secret`). Proof: the binomial theorem modulo the square, Carmichael's theorem for a product of two primes. Not modelled: the search for primes, the parameter lists, reading keys out.
* **C75 ElGamal: generation, encryption and decryption** – model of the generation from the drawn numbers, of encryption and decryption on the modelled numbers (Crypto/Elgamal); the random numbers are lists of inputs, the prime of `BN_GenPrime` is an input, and the first of two calls of `ElGamal_GenP`, whose result is replaced, is left out. Setting and reading of keys and parameters is not modelled. Proof: exact results of each operation from the theorems on the numbers; decryption is shown correct for every modulus by cancelling the power of the first half, which is prime to the modulus.
* **C76 CMAC and CBC-MAC: any way of giving the message yields the specified code** – model of the common context with its update, of the subkeys and of both final operations (Crypto/Cmac), for an arbitrary function on blocks in place of the keyed cipher; that the cipher fails is not modelled. Proof: invariant of the context (chaining value of the full blocks, last block kept back) preserved by every update; the subkeys by the value of the shifted bytes as a number; the decomposition of a message into blocks is unique.
* **C77 SipHash: any way of giving the message yields the specified hash** – model of the whole of siphash.c except the allocation of contexts (Crypto/Siphash). Proof: loading bytes with shifts is the little-endian number; the last word with its fall-through cases is the padded block; an invariant of the context (state after the full words, bytes that wait, length) is preserved by every update.
* **C78 scrypt is the function of RFC 7914** – Model of the Salsa core (the 32 statements), the block mixing with its two output halves, the two loops of ROMix on a flat table with 32-bit indices, the parameter check with the widths of its products and the derivation over an arbitrary PBKDF2. Specification: RFC 7914 sections 3 to 6 with quarter-rounds, Y[i], Integerify of the whole last block modulo N. Proved: each layer equals the RFC, the accepted parameters are exactly those of the RFC below 4 GiB, the allocation size does not wrap. PBKDF2 is a parameter in scrypt_exact; scrypt_pbkdf2 and scrypt_sha256 put the PBKDF2 of C30 and HMAC-SHA-256 in its place.
* **C79 One-time passwords: the code is that of RFC 4226 and RFC 6238, and validation accepts exactly the codes of the window** – model of otp.c and of the setters of otp_util.c over an arbitrary MAC (Auth/Otp): counter bytes, truncation with a fault outcome for a read outside the MAC, the digit loop with its 32-bit variables, the window loop with 64-bit wrapping of the step. Specification: RFC 4226 5.3 on numbers, and 'the number written with exactly d decimal digits', which has one solution. Proved for every history of calls by an invariant of the context. Not modelled: parsing of the parameter lists, random keys, callbacks that fail.

## Findings

Places where the modelled code does not do what a caller may expect; each is backed by a theorem.
* **F-ASN1-1** – BSL_ASN1_GetEncodeLen and the encoder allow an item of exactly 2^32-1 bytes, BSL_ASN1_DecodeLen refuses it (`decodeLen_max_refused`). Harmless off-by-one.
* **F-ASN1-2** – BSL_ASN1_DecodeLen accepts non-minimal (BER) length fields, so DER uniqueness does not hold for decoded objects (`decodeLen_accepts_nonminimal`).
* **F-ASN1-3** – The template decoder accepts an INTEGER with empty contents (X.690 8.3.1 forbids it): ProcessIntegerType is skipped for length 0 (`decodeInt_accepts_empty`).
* **F-TLV-1** – BSL_TLV_FindValuePos loops while remainLen > 8, BSL_TLV_Parse while >= 8: an empty TLV at the end of the data is found by one and not by the other (`find_misses_trailing_empty`).
* **F-TIME-1** – BSL_DateTimeAddUs (sal_time.c:208) adds us and the microsecond field in uint32_t; for us = 4294967295 and microSec = 1 the sum wraps to 0 and the result is one microsecond earlier than the input (addUs_wraps).
* **F-ASN1-4** – UTCTime texts with years 50-69 (1950-1969) are always refused because BSL_DateTimeCheck requires 1970 or later; UTCTime of 1970-1999 is parsed but CheckBslTime (bsl_asn1.c:1202) refuses to encode it as UTCTime again, so such a certificate field cannot be re-encoded (utcTime_not_reencodable). The final Z is optional although DER requires it.
* **F-ASN1-5** – ParseBMPString (bsl_asn1.c:371) keeps only the low octet of each character: U+4E2D and U+002D parse to the same string (parseBmp_drops_high).
* **F-LIST-1** – BSL_LIST_Concat of a list with itself is not refused and turns the list into a ring (concat_self_ring); traversals then do not terminate. concat_spec therefore requires different nodes.
* **F-HASH-1** – BSL_HASH_Create accepts up to 89478484 buckets, but BSL_HASH_CheckResize refuses every insertion when bucketSize*100 overflows 32 bits, so a table created with more than 42949672 buckets can never hold an entry (create_too_large).
* **F-AVL-1** – BSL_AVL_InsertNode returns NULL for an id that is present and its recursive caller stores that NULL as the child pointer, so a duplicate insertion drops the whole subtree under the id (duplicate_loses, duplicate_root). The callers in err.c search before inserting, so it is unreachable through the public API.
* **F-ERR-1** – BSL_ERR_ClearLastMark loops forever, holding the global write lock, when the calling thread's stack is full (20 errors) and no entry is marked (stuck_iff, hang_reachable).
* **F-UIO-1** – `BSL_BufMemGrowClean` refuses to grow a memory UIO to 3221225469 bytes or more although lengths are 32-bit: the growth factor 4/3 overflows first. `run_refines` states this as the exact bound under which a write can fail without an allocation failure.
* **F-DRBG-1** – A context that survives two forks, the second child getting the process id of the process that last seeded it, is not reseeded in that child (fork detection compares process ids): theorem pid_reuse.
* **F-DRBG-2** – A reseed interval of 0 gives one output per seeding, the same as an interval of 1 (the counter starts at 1): output_allowed states `gens = 0 or gens < interval`.
* **F-HEALTH-1** – A repetition cutoff below 2 does not fire on the first sample of a run, and an adaptive proportion window of 1 behaves as 2: rct_iff and apt_iff carry the hypotheses 2 <= cutoff, 2 <= windowSize; osrCutoffs_ok shows that the library's own cutoffs satisfy them.
* **BN-1** – BN_SubLimb (bn_operation.c:183-185) leaves the sign of the destination when a positive one-word number is at least the word: into an object that held a negative number, 5 - 3 gives -2 and 5 - 5 a negative zero that compares below zero (subLimb_keeps_old_sign, subLimb_negative_zero).
* **BN-2** – BN_ModLimb (bn_operation.c:574-598) of a negative multiple of m returns m instead of 0 (modLimb_returns_modulus).
* **BN-3** – BN_Lcm (bn_gcd.c:279-286) with the destination equal to the second operand overwrites it before the multiplication: lcm(4,6) gives 4 (lcm_alias_wrong).
* **BN-4** – BN_ModInv reports no inverse for the moduli 1 and -1 (modInv_one).
* **M1** – Modes: CRYPT_EAL_CipherUpdate failing with BUFF_LEN_NOT_ENOUGH has already taken input into the block cache (modes.c:345-361), so the call cannot simply be repeated with more room (example in BlockProps).
* **M2** – Modes: padded decryption of the empty ciphertext succeeds with an empty message although no message encrypts to it (modes.c:406-409; theorem block_decrypt_empty).
* **M3** – XTS: in-place operation (out == in, which the EAL layer permits) with a length that is not a multiple of 16 gives a wrong result in both directions, because each tail byte is overwritten before it is read (modes_xts.c:226-227, :293-294; theorem xts_in_place_fails).
* **M4** – CBC: Final on decryption with too small a buffer has advanced the chaining value but kept the cached block, so a retry decrypts it under the wrong chaining value (modes.c:406-431).
* **G1** – GCM: the key-usage limit of 2^32-1 counts `GET_TAG` calls only, is tested for one exact value and wraps (`use_count`, `use_limit_wraps`): encrypting without fetching the tag is not counted and one more `GET_TAG` at the limit re-opens the key; `SetKey` does not reset it.
* **G2** – GCM: `CRYPT_EAL_CipherInit` on a context in use keeps the expected tag of the previous session (`init_keeps_old_tag`), unlike `SET_IV`/`REINIT_STATUS` (`reinit_clears_tag`).
* **G3** – MD5 and SM3 keep no error flag (md5.c:79-111, sm3_public.c:80-112): after an Update refused at 2^64 bits, hNum is already 0 and a later Final succeeds with a wrong length field (`refused_not_sticky_witness`). SHA-1/SHA-2 refuse everything afterwards (`refused_sticky`).
* **C31** – modes_chacha20_poly1305.c InitCtx keeps the verification tag of the previous message (REINIT clears it): theorem init_keeps_old_tag. Decrypt absorbs the ciphertext into the authenticator before the cipher may refuse the call for length, so after a refused decrypt call the session's tag no longer matches the data output so far (encrypt is atomic: aead_limit).
* **C32** – `CRYPT_RSA_SALTLEN_TYPE_MAXLEN` (and AUTOLEN when signing) computes the salt length from the modulus length (rsa_padding.c:97-102, :309-311); for a modulus of 8n+1 bits the encoded message is one octet shorter, so signing and verifying with it always fail the length check (`pss_max_fails`), although RFC 8017 allows a salt of that maximal length.
* **C39** – With the partial-wildcard flag an empty label of the certificate name is not compared: '.com' matches 'foo.com' (empty_label_matches_any_label). A wildcard also matches an empty first label ('*.a.com' matches '.a.com'), and with the flag '*' matches 'localhost' and '*.com' matches 'foo.com'.
* **C46** – Wrap and unwrap apply the same CRYPT_WRAP_MAX_INPUT_LEN to their input, so the largest plaintext accepted by wrap (2^32-24 bytes) yields a ciphertext that unwrap refuses (largest_not_unwrappable). WRAP_Decrypt forms a pointer 8 bytes before 'out' after the last iteration of each pass (never dereferenced).
* **C36-shift** – `crypt_aes_sbox.c:76-82` builds words with `AES_S[..] << 24` where the operand is a byte promoted to int: for entries >= 0x80 the shift reaches the sign bit, undefined behaviour before C23 (harmless with the usual compilers; only in the S-box build). The model takes the two's-complement result.
* **C48-legacy13** – recv_server_hello.c:1009-1039: CheckDowngradeRandom returns success without a version when the ServerHello has no supported_versions and a legacy version that is not 1.2; ClientCheckVersion then accepts 0x0304 (DTLS: 0xfefc) because it lies within min..max, so a 1.3 client continues the pre-1.3 handshake with negotiated version 1.3 and without looking at the downgrade marker (theorem client_accepts_13_in_legacy_field). RFC 8446 4.2.1 wants such a hello rejected.
* **C48-setversion** – config.c: HITLS_CFG_SetVersion returns early when the bounds equal the present ones, so SetVersion(TLS12, TLS13) leaves TLCP enabled on a fresh configuration for all versions and disables it after another call (theorem setVersion_history). With TLS_FALLBACK_SCSV a TLCP hello to a server that also enables TLS 1.3 is not rejected, because the maximum is recomputed to TLCP first.
* **C38** – (handshake order) A client that also supports TLS 1.3 and resumes a TLS 1.2 session accepts a ChangeCipherSpec before the ServerHello (or before NewSessionTicket) as the one that must precede Finished, because it becomes ready for compatibility CCS records when it sends its ClientHello and the flag is only reset in a full handshake (`ccs_before_serverHello_witness`; keys are still switched at the right moment, `keys_not_early`). After a HelloRetryRequest the client accepts a TLS 1.2 ServerHello (RFC 8446 4.1.4 asks for illegal_parameter; `retry_then_tls12_witness`). A server with isSupportClientVerify and without isSupportNoClientCert completes without any client certificate for anonymous and PSK suites, with a TLS 1.3 PSK (even an external one) and when post-handshake authentication is negotiated (`no_client_certificate_witness`).
* **C40** – Path building is greedy: the first certificate with a matching name (and key identifier, if both have one) is taken and never reconsidered, so a same-named decoy in the peer's list makes a valid chain fail (Ex.no_backtracking). A version 1/2 trust anchor needs no CA marking (Ex.v1_anchor_accepted). The depth test counts one more than the path when the certificate is itself the anchor: maxDepth 1 rejects a trusted self-signed certificate (Ex.single_cert_needs_depth_two). The authority key identifier is ignored when the issuer has no subject key identifier, even its issuer/serial part. Extended key usage of CA certificates is not looked at. PQC/ML-KEM key-usage failures are the only ones that do not go through the callback.
* **C35** – `CRYPT_XMSS_SetPrvKey` installs whatever index it is given, also a lower one on a context that already holds the same key (xmss_common.c:462-525); the next signature then repeats an index (`import_can_roll_back`). Freshness therefore depends on the application importing only unused positions.
* **C33** – TransposeMatrixMulAdd (ml_kem_poly.c) is commented as adding to its destination, but the accumulators start at zero; harmless because the caller adds e1 afterwards. Barrett reduction is only centred for arguments up to about 75000: for large accumulators it drifts by 894 a / 2^27 (theorem barrett_drifts), so a coefficient of the inner product in decryption can leave [-1664, 1664]; the inverse transform is safe only because the sums of eight coefficients of one parity class stay below 2^15, which the proof has to establish (fit_large).
* **C45** – HITLS_X509_ParsePem ends its loop with success at the first block that cannot be decoded, so a bundle of certificates or CRLs with a damaged block (for instance one wrong base64 character in the second CRL) is accepted with the blocks before it only; neither the damaged block nor anything behind it is reported (bundle_truncates). BSL_PEM_GetSymbolAndType goes by the order of its table: a certificate followed by its private key is detected as a private key (type_by_table_order).
* **C47** – BSL_OBJ_Create reports success without storing anything when the number is already in use, even if the octets differ (register_again); BSL_OBJ_GetOidFromNumericString accepts numbers up to 2^64-1 whose octets BSL_OBJ_GetOidNumericString refuses to print from 10^18 on, because its 20-byte scratch array is too small (text_limit); identifiers 2.40 and above, valid in X.690, are refused in both directions. When two threads register the same number, the loser's BslOidInfo is neither stored nor freed (bsl_obj.c:601-604; a leak, outside the model).
* **C41** – Serialised sessions: (a) `SESS_Decode` requires no object except the last of its table, so the eight bytes 0000010d 00000000 decode to an all-zero session (`minimal_accepted`), and short integer values are accepted; (b) `SESS_Encode` writes a server name of any length but `SESS_Decode` rejects one of more than 255 bytes including the terminator, so such a session is encoded and can never be restored (`long_host_lost`).
* **C37** – Record headers: (a) an alert whose version differs from the negotiated one only in the minor number is accepted (`VersionOk`, example in `RecRead/Props.lean`), also after the keys are in use; (b) type 26 (the DTLS 1.3 ACK) is accepted as a record type on streams before TLS 1.3 protection starts (`TypeOk`) and is only refused later by the handler of unexpected messages.
* **F-MLDSA-SK** – (C34) `SkDecode`/`DecodePrvKey` (ml_dsa_core.c:557-583, 1107-1127) unpack s1 and s2 without a range check: 3-bit values 5..7 (eta = 2) and 4-bit values 9..15 (eta = 4) are accepted and give coefficients down to -5 and -11, which no generated key has (`prvkey_out_of_range_accepted`). FIPS 204 skDecode says such input may only come from a trusted source; an importer gets no error.
* **C65** – `GetBnByData` (ecdsa.c:146-176) calculates `8 * dLen` in 32 bits and ignores the error of `BN_Bin2Bn`. `CRYPT_ECDSA_SignData` and `CRYPT_ECDSA_VerifyData` accept any length, and all data of 2^29 bytes that do not begin with a zero byte are treated as the number zero, so a signature of one is a signature of all of them (`getBn_wrap`).
* **dsa-bits** – `DSA_Bits2Int` (dsa_core.c:806-822) takes the leftmost *bytes* of the hash and never shifts. For an order whose length is not a multiple of 8 bits (the parameter check, dsa_core.c:228-232, only demands at least 160 bits) the number signed differs from the one of FIPS 186-4/RFC 6979 as soon as the hash is longer than the order (`dsaBits_wrong`): such signatures do not verify elsewhere, although they verify with this library (`dsa_sign_verifies`).
* **sig-ber** – `CRYPT_EAL_DecodeSign` accepts lengths that are not the shortest (`decodeSign_not_unique`), inherited from `BSL_ASN1_DecodeLen`: an ECDSA, SM2 or DSA signature has several accepted byte strings, although RFC 3279 asks for DER. Everything else about the structure is checked (`decodeSign_exact`).
* **rsa-blind-stuck** – RSA_InitBlind (rsa_encdec.c:286-288) keeps the new scBlind when RSA_BlindCreateParam fails and has set its numbers to NULL; a later call sees a blinding object and fails in BN_ModMul with CRYPT_NULL_INPUT. One failure of the random generator at the first private operation so disables the context for good (`blind_stuck`).
* **rsa-n-d** – CRYPT_RSA_SetPrvKey accepts a key of n and d alone (rsa_keyop.c:76), but with blinding, which is on by default, every private operation fails: RSA_GetPublicExp works with p = q = 0 and asks for an inverse modulo 1 (`no_exponent`).
* **rsa-qinv** – The length and value of a given qInv are not checked (SetPrvBnLenCheck, rsa_keyop.c:100-109, looks at d, p and q only); MontMulCore (bn_mont.c:750) copies all its words into the result, which has room for the modulus plus one bit, whatever their number. A private key with an oversized coefficient makes the private operation write outside of a heap buffer (`qInv_overflow`).
* **rsa-unrelated** – CRYPT_RSA_SetPrvKey does not compare the modulus with the primes: a key whose n is not p*q is accepted and the private operation then returns values that do not belong to n (`setPrv_unrelated`).
* **dh-generator** – `CRYPT_DH_SetPara` checks neither that the modulus is prime nor that the generator has the order given (`generator_unchecked`: modulus divisible by 3, generator 3; every public key made from these parameters is refused by `CRYPT_DH_ComputeShareKey`). With an order and a security strength, key generation does not check the public key at all.
* **bssa-reuse** – `BssaBlind` draws a factor only when the context has none and keeps it for all later messages, while RFC 9474, 4.2 asks for a new one each time. `blind_linkable`: for two messages blinded with one context z1·m2 ≡ z2·m1 (mod n), so the signer can link them to the signatures without any secret.
* **bssa-failed-set** – `RsaSetBssa` replaces the numbers of an existing factor before it checks the new one. After a refused factor the context holds the refused number without its power and the inverse zero; blinding then succeeds and unblinding gives zero for every signature (`setBssa_spoils`).
* **paillier-length** – (C74) `CRYPT_PAILLIER_Decrypt` and `CRYPT_PAILLIER_Add` ask for ciphertexts of exactly twice the length of the context. For a context that has generated its key this is the length of a prime (the parameters are kept), so that it refuses its own ciphertexts, which are four times as long (`gen_refuses_own`); with a key that was set it is the length of lambda. `CRYPT_PAILLIER_Encrypt` moreover drops leading zeros, so one ciphertext in 256 is refused even then (`dec_refuses_length`).
* **paillier-base** – (C74) The base g of a public key is not checked when it is set. With g = 1 every ciphertext encrypts zero (`base_unchecked`).
* **elgamal-modulus** – (C75) `ElGamal_GenP` sets p = k*q + 1 for a random k and never tests whether p is a prime. `gen_exact` gives the modulus for every k. For every odd k and odd q it is even, and `CRYPT_ELGAMAL_Encrypt` with the generated key fails for every message (`gen_even_useless`), because `BN_MontCreate` refuses an even modulus; for even k the modulus is odd and in general composite (27 in an example).
* **elgamal-message** – (C75) `CRYPT_ELGAMAL_Encrypt` does not compare the message with the modulus: a larger message is encrypted and decrypts to its remainder (`enc_wraps`, `dec_correct`), and zero, or a message with a factor in common with the modulus, is encrypted but its ciphertext is refused by `CRYPT_ELGAMAL_Decrypt` (`dec_correct`).
* **cbcmac-zeros** – (C76) The only padding of `CRYPT_CBC_MAC` is the one with zeros, so a message whose last block is not full and that message with a zero byte appended have the same code (`cbcMac_collision`).
* **totp-wrap** – In the first 'window' steps after the start offset the verification window of TOTP reaches below step 0 and the 64-bit step number wraps (otp.c:169): the codes of the counters 2^64-1, 2^64-2, … are accepted, and reported as the matched step (totp_wraps). totp_validate therefore assumes that the step is at least the window.
