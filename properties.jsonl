{"id": "C01", "title": "DTLS anti-replay: no record is accepted twice", "statement": "After a DTLS record with sequence number s has been authenticated and recorded, a later record with the same s in the same epoch is reported as a replay, whatever other records were checked or recorded in between and in whatever order; and a sequence number that is new and not older than 64 behind the newest one is never reported as a replay.", "quantifier": "all finite histories of window check/update/reset operations and all sequence numbers below 2^48", "why_tests_cant": "the window state depends on the complete arrival history; tests only try a few orders", "anchors": ["tls/record/src/rec_anti_replay.c: RecAntiReplayReset, RecAntiReplayCheck, RecAntiReplayUpdate"]}
{"id": "C02", "title": "TLS record write never reuses a sequence number under one key", "statement": "For one write state, the sequence numbers (hence AEAD nonces) of successively sent TLS records are strictly increasing and the record layer refuses to write once the counter would wrap, for every pattern of successful and blocked sends.", "quantifier": "all histories of write calls with arbitrary IO outcomes", "why_tests_cant": "nonce reuse appears only after particular interleavings of blocked writes and counter exhaustion (2^64 records)", "anchors": ["tls/record/src/rec_write.c: TlsRecordWrite, SequenceCompare, REC_OutBufFlush", "tls/record/src/rec_conn.c: RecConnSetSeqNum"]}
{"id": "C03", "title": "AEAD per-record nonce and AAD are injective and follow the RFCs", "statement": "For fixed IV the nonce is an injective function of the 64-bit sequence number, and the additional authenticated data determines sequence number, type, version and length of the record.", "quantifier": "all IVs, sequence numbers, record types, versions and lengths", "why_tests_cant": "a collision among 2^64 sequence numbers cannot be sampled", "anchors": ["tls/record/src/rec_crypto_aead.c: AeadGetNonce, AeadGetAad"]}
{"id": "C04", "title": "DTLS handshake reassembly is exact", "statement": "A reassembled handshake message is delivered only when every byte of it has been received, for every way the message is cut into (possibly overlapping, duplicated, reordered) fragments, and then the delivered bytes are the bytes of the received fragments.", "quantifier": "all message lengths, all sequences of fragment (offset,length) pairs", "why_tests_cant": "the bitmap masks have 64 boundary combinations times unbounded histories of overlapping fragments", "anchors": ["tls/handshake/reass/src/hs_reass.c: SetReassBitMap, IsReassComplete, ReassembleMsg, HS_ReassAppend, HS_GetReassMsg"]}
{"id": "C05", "title": "CBC record padding check accepts exactly the valid paddings", "statement": "The branch-free padding check of the TLS CBC record layer accepts a decrypted record iff its last pad+1 bytes all equal pad and padding plus MAC fit in the record; padding added by the sender is always accepted and removed exactly.", "quantifier": "all decrypted records of any length and MAC sizes", "why_tests_cant": "padding-oracle bugs live in boundary lengths and in single-bit masks", "anchors": ["tls/record/src/rec_crypto_cbc.c: RecConnGetCbcPaddingLen, CbcDecrypt padding check"]}
{"id": "C06", "title": "Key block is partitioned without overlap", "statement": "The expanded key block is split into client/server MAC keys, keys and IVs that are disjoint, in RFC 5246 order, cover exactly the requested length, and client-write equals server-read.", "quantifier": "all key block contents and all MAC/key/IV sizes", "why_tests_cant": "overlap depends on the sizes of each cipher suite", "anchors": ["tls/record/src/rec_conn.c: RecConnCalcWriteKey, RecConnKeyBlockGen"]}
{"id": "C07", "title": "Base64 one-shot encode/decode round trip", "statement": "Decoding the output of BSL_BASE64_Encode returns the original bytes; the encoder writes exactly 4*ceil(n/3) characters of the base64 alphabet and needs exactly that plus one byte of buffer.", "quantifier": "all byte strings", "why_tests_cant": "unbounded input length and content", "anchors": ["bsl/base64/src/bsl_base64.c: BSL_BASE64_Encode, BSL_BASE64_Decode"]}
{"id": "C08", "title": "Base64 decoding rejects every malformed string", "statement": "BSL_BASE64_Decode succeeds only on strings that, after removing blanks, are a non-empty sequence of 4-character groups over the alphabet with '=' only as the last one or two characters, and then the result has the length implied by the padding.", "quantifier": "all character strings", "why_tests_cant": "malformed inputs are unbounded; a single missed check accepts forged PEM data", "anchors": ["bsl/base64/src/bsl_base64.c: BSL_BASE64_Decode"]}
{"id": "C09", "title": "Base64 streaming equals one-shot", "statement": "Feeding data to the streaming encoder/decoder in any chunking produces the same output as feeding it in one piece; the streaming encoder breaks lines exactly every 64 characters, and streaming decode of streaming encode is the identity.", "quantifier": "all byte strings, all ways to split them into update calls", "why_tests_cant": "the number of chunkings is exponential in the length", "anchors": ["bsl/base64/src/bsl_base64.c: BSL_BASE64_EncodeUpdate, EncodeFinal, DecodeUpdate, DecodeFinal"]}
{"id": "C10", "title": "ASN.1 length decoding never leaves the buffer and inverts encoding", "statement": "BSL_ASN1_DecodeLen, BSL_ASN1_DecodeItem and BSL_ASN1_GetCompleteLen read only inside the given buffer, and on success the announced content lies completely inside the remaining buffer; the length fields accepted are exactly the definite-form X.690 fields of at most five octets whose item has a size below 2^32-1; for every such item the encoder's length field is the shortest one and decodes to the encoded length.", "quantifier": "all buffers and all lengths below 2^32", "why_tests_cant": "the space of buffers and lengths is unbounded; boundaries at 127/128, 2^8k and 2^32 interact", "anchors": ["bsl/asn1/src/bsl_asn1.c: BSL_ASN1_DecodeLen, BSL_ASN1_DecodeItem, BSL_ASN1_GetCompleteLen, BSL_ASN1_GetEncodeLen, EncodeLength"]}
{"id": "C11", "title": "ASN.1 INTEGER encode/decode round trip and DER minimality", "statement": "Encoding an unsigned number (bytes or limb) as INTEGER gives the unique minimal DER contents, and decoding gives back the shortest bytes of the number; negative or non-minimal non-empty contents are rejected; conversion to a C int accepts exactly values that fit.", "quantifier": "all non-negative integers / all non-empty content octets", "why_tests_cant": "infinitely many numbers; sign-bit and leading-zero cases at every length", "anchors": ["bsl/asn1/src/bsl_asn1.c: ProcessIntegerType, EncodeInt, GetContentLenOfInt, BSL_ASN1_EncodeLimb, ParseInt"]}
{"id": "C12", "title": "UTF-16/BMP/UTF-8 string conversion is exact", "statement": "Conversion of BMPString/UniversalString/Teletex contents to UTF-8 maps each code point to its UTF-8 encoding and rejects surrogates and values above U+10FFFF; the output length computed equals bytes written.", "quantifier": "all code-point sequences", "why_tests_cant": "1.1 million code points times unbounded sequences", "anchors": ["bsl/asn1/src/bsl_asn1.c: CodePointToUtf8, BSL_ASN1_ToUtf8String"]}
{"id": "C13", "title": "TLV pack/parse round trip and bounds", "statement": "Packing a value and parsing the packed bytes returns the same type, length and value; parsing succeeds exactly on data that starts with well-formed TLVs one of which has the wanted type and fits; searching returns the position of the first such value unless it is an empty one at the very end; parsing never reads beyond the given length.", "quantifier": "all types, values, buffers below 2^32 bytes", "why_tests_cant": "unbounded sequences of TLVs with arbitrary lengths", "anchors": ["bsl/tlv/src/tlv.c: BSL_TLV_Pack, BSL_TLV_Parse, BSL_TLV_FindValuePos"]}
{"id": "C14", "title": "Linked list operations refine a sequence", "statement": "Every history of list insert/delete/detach/search/iterate operations behaves like the same history on a mathematical sequence with a cursor, and the stored element count is always the number of elements.", "quantifier": "all histories of list operations", "why_tests_cant": "pointer-structure corruption depends on the history of operations", "anchors": ["bsl/list/src/bsl_list.c", "bsl/list/src/bsl_list_internal.c"]}
{"id": "C15", "title": "Hash table is a finite map at every size", "statement": "Every history of insert/update/find/erase on the hash table returns what a finite map would return, including while buckets are being split or merged by linear hashing.", "quantifier": "all histories and all hash functions", "why_tests_cant": "wrong-bucket bugs depend on exact split pointers and hash values", "anchors": ["bsl/hash/src/bsl_hash.c: BSL_HASH_Insert, BSL_HASH_At, BSL_HASH_Erase, BSL_HASH_SplitBucket, BSL_HASH_GetBucketIndex"]}
{"id": "C16", "title": "AVL tree is a balanced finite map", "statement": "After any history of inserts of absent ids, replacements and deletes the tree contains exactly the inserted and not deleted ids, lookups return their data, ids are ordered and sibling heights differ by at most one.", "quantifier": "all histories of insert/delete/search", "why_tests_cant": "rebalancing errors need particular shapes of arbitrary depth", "anchors": ["bsl/err/src/avl.c: BSL_AVL_InsertNode, BSL_AVL_DeleteNode, BSL_AVL_SearchNode"]}
{"id": "C17", "title": "Per-thread error stack keeps the last 20 errors", "statement": "The error stack returns exactly the most recent 20 pushed errors of the calling thread, oldest first or newest first as asked, marks delimit pops, and threads do not affect each other except by removing all stacks or using up the 65535 stacks. Every call returns, except that clearing the last mark never returns when the stack is full and holds no mark.", "quantifier": "all histories of push/get/peek/mark/pop/clear calls by any number of threads", "why_tests_cant": "ring-buffer wrap-around and marks interact over long histories", "anchors": ["bsl/err/src/err.c: BSL_ERR_PushError, GetErrorInfo, BSL_ERR_SetMark, BSL_ERR_PopToMark, BSL_ERR_ClearLastMark"]}
{"id": "C18", "title": "Date/UTC-second conversion is exact and monotone", "statement": "The number of seconds computed for a valid date equals the Gregorian count since 1970-01-01; exactly the dates of the calendar (year 1970 on) are accepted; comparison of dates (to the second and to the microsecond) agrees with calendar order; converting seconds back to a date is the inverse up to the end of year 65535; adding days and seconds is exact and keeps the fraction of a second.", "quantifier": "all dates from 1970 on; all day and second offsets of the argument types", "why_tests_cant": "leap-year rules and month tables: tests sample a few dates", "anchors": ["bsl/sal/src/sal_time.c: BslMkTime64Get, BSL_DateTimeCheck, BSL_SAL_DateTimeCompare, BSL_DateTimeAddUs, BSL_DateTimeAddDaySecond"]}
{"id": "C19", "title": "DRBG never outputs from an unseeded, failed or over-used state", "statement": "Random bytes are produced only by a generator that has been successfully seeded, was reseeded within its reseed interval, in this process after a fork, and with fresh entropy when prediction resistance is requested; any entropy failure blocks output until a successful re-instantiation.", "quantifier": "all histories of instantiate/reseed/generate/uninstantiate calls with arbitrary entropy-source failures and forks", "why_tests_cant": "requires all interleavings of failures, forks and counters", "anchors": ["crypto/drbg/src/drbg.c: DRBG_Instantiate, DRBG_Reseed, DRBG_Generate, DRBG_Uninstantiate, DRBG_GenerateBytes"]}
{"id": "C20", "title": "Entropy health tests fire exactly at the cutoff", "statement": "The repetition count test fails exactly when the last `cutoff` samples are equal; the adaptive proportion test fails exactly when the first sample of the current window occurs cutoff times in it.", "quantifier": "all sample streams, cutoffs, windows", "why_tests_cant": "streams are unbounded; off-by-one changes the false-accept rate silently", "anchors": ["crypto/entropy/src/es_health_test.c: ES_HealthTestRct, ES_HealthTestApt, ES_HealthTestReset"]}
{"id": "C21", "title": "Big-number limb arithmetic is exact", "statement": "Multi-limb addition, subtraction, multiplication, squaring, shifting, comparison and division by a limb return the mathematically exact result with correct carry/borrow for every limb vector and length.", "quantifier": "all limb vectors of all lengths", "why_tests_cant": "carry-propagation bugs occur with probability about 2^-64 on random inputs", "anchors": ["crypto/bn/src/bn_bincal.c: BinInc, BinDec, BinAdd, BinSub, BinSubMul, BinMul, BinSqr, BinLshift, BinRshift, BinDiv"]}
{"id": "C22", "title": "Modular exponentiation and Montgomery arithmetic are exact", "statement": "BN_ModExp and BN_MontExp return a^e mod m, between zero and the modulus, for every integer base, every non-negative exponent and every modulus other than zero (odd ones for a Montgomery context), with and without the constant-time flag; a negative exponent, a zero modulus and an even or negative modulus for a context are errors. Montgomery multiplication of reduced operands returns a*b*R^-1 mod m fully reduced.", "quantifier": "all word sizes of the build, all bases, exponents and moduli of any size", "why_tests_cant": "final-subtraction and window bugs occur with negligible probability on random inputs", "anchors": ["crypto/bn/src/bn_mont.c: BN_MontCreate, BN_MontExp, BN_MontExpConsttime, MontMulBinCore, ReduceCore", "crypto/bn/src/bn_operation.c: BN_ModExp"]}
{"id": "C23", "title": "Fast modular reduction for NIST and SM2 primes is exact", "statement": "Multiplying and squaring residues modulo the primes of P-224, P-256, P-384, P-521 and SM2 with the dedicated routines returns the residue of the exact product, reduced below the prime, in the library's normal form; the underlying reductions do so for every double-length input (P-521: every input below the square of the prime, a bound that cannot be dropped). A 192-bit modulus goes through the general reduction, a modulus of another size is refused, and the quick modular sum and difference of two residues are exact for every modulus. No table or input is read out of bounds.", "quantifier": "all double-length inputs; all residues; all moduli for sum and difference", "why_tests_cant": "missed carry chains and table entries occur with tiny probability; the input space has 2^448 to 2^1042 elements", "anchors": ["crypto/bn/src/bn_nistmod.c: ReduceNistP224, ModNistP224, ReduceNistP256, ModNistP256, ReduceNistP384, ModNistP384, ReduceNistP521, ModNistP521, ReduceSm2P256, ModSm2P256, BN_ModNistEccMul, BN_ModNistEccSqr, BN_ModSm2EccMul, BN_ModSm2EccSqr, BN_ModAddQuick, BN_ModSubQuick, UpdateSize"]}
{"id": "C24", "title": "CTR mode is chunk-independent and self-inverse", "statement": "Encrypting a message in any chunking of updates yields the same ciphertext as in one call, each counter block is used once, and decrypting returns the plaintext.", "quantifier": "all block ciphers, keys, counters, messages and chunkings", "why_tests_cant": "exponentially many chunkings, counter wrap at 2^128", "anchors": ["crypto/modes/src/modes_ctr.c: MODES_CTR_Crypt, MODES_CTR_LastHandle"]}
{"id": "C25", "title": "CBC/CFB/OFB/ECB/XTS decrypt inverts encrypt", "statement": "For every mode, decryption of an encryption under the same key and IV returns the plaintext for every length the mode accepts.", "quantifier": "all block permutations, IVs, messages", "why_tests_cant": "unbounded lengths and contents", "anchors": ["crypto/modes/src/modes_cbc.c", "crypto/modes/src/modes_cfb.c", "crypto/modes/src/modes_ofb.c", "crypto/modes/src/modes_ecb.c", "crypto/modes/src/modes_xts.c"]}
{"id": "C26", "title": "Block padding removal inverts padding and rejects everything else", "statement": "PKCS7/ISO7816/X9.23/zero padding followed by unpadding returns the message; unpadding rejects blocks that are not valid paddings.", "quantifier": "all messages, block sizes and last blocks", "why_tests_cant": "all final blocks cannot be enumerated", "anchors": ["crypto/modes/src/modes.c: MODES_SetPaddingData / MODES_BlockPadding, MODES_BlockUnPadding"]}
{"id": "C27", "title": "GCM computes GHASH of AAD and ciphertext", "statement": "The streaming GCM implementation authenticates exactly pad(A)||pad(C)||len(A)||len(C) for any chunking and its GF(2^128) multiplication agrees with the field definition.", "quantifier": "all AAD, messages, chunkings", "why_tests_cant": "chunk buffering and table-driven field arithmetic", "anchors": ["crypto/modes/src/modes_gcm.c", "crypto/modes/src/noasm_ghash.c"]}
{"id": "C28", "title": "Hash streaming equals one-shot with correct padding", "statement": "For SHA-256/512, SHA-1, SM3, MD5 and SHA-3 the digest after any sequence of updates equals the compression of the padded concatenation of the pieces.", "quantifier": "all messages below the length limit and all chunkings", "why_tests_cant": "exponentially many chunkings, padding boundaries", "anchors": ["crypto/sha2/src/sha2_256.c", "crypto/sha2/src/sha2_512.c", "crypto/sm3/src/sm3_public.c", "crypto/sha1/src/sha1.c", "crypto/md5/src/md5.c", "crypto/sha3/src/sha3.c"]}
{"id": "C29", "title": "HMAC equals its RFC 2104 definition for every key length", "statement": "HMAC init/update/final returns H((K'^opad)||H((K'^ipad)||m)) for every key length and chunking, also after reinit and for duplicated contexts.", "quantifier": "all keys, messages, chunkings, histories", "why_tests_cant": "key-length boundary and context reuse histories", "anchors": ["crypto/hmac/src/hmac.c"]}
{"id": "C30", "title": "HKDF, PBKDF2 and TLS1.2 PRF output the specified stream for every length", "statement": "Derived key of length L is the L-byte prefix of the specified block stream; shorter requests are prefixes of longer ones; over-limit lengths are refused.", "quantifier": "all lengths, salts, infos, iteration counts", "why_tests_cant": "block boundary errors, counters", "anchors": ["crypto/hkdf/src/hkdf.c", "crypto/pbkdf2/src/pbkdf2.c", "crypto/kdf/src/kdf_tls12.c"]}
{"id": "C31", "title": "ChaCha20 and Poly1305 equal their definitions", "statement": "ChaCha20 keystream use is chunk-independent and self-inverse; the Poly1305 limb implementation returns the polynomial value modulo 2^130-5 plus s modulo 2^128.", "quantifier": "all keys, messages, chunkings", "why_tests_cant": "rare carries in 26-bit/64-bit limb arithmetic", "anchors": ["crypto/chacha20/src/chacha20.c", "crypto/modes/src/modes_chacha20_poly1305.c", "crypto/modes/src/noasm_poly1305.c"]}
{"id": "C32", "title": "RSA paddings: encode is accepted, decode accepts only well-formed blocks", "statement": "PKCS#1 v1.5, PSS and OAEP verification/decoding accepts exactly the blocks with the required structure, recovers the encoded message, and the branch-free decoder agrees with the specification.", "quantifier": "all encoded blocks, message lengths and moduli sizes", "why_tests_cant": "Bleichenbacher-type forgeries are rare structured inputs", "anchors": ["crypto/rsa/src/rsa_padding.c"]}
{"id": "C33", "title": "ML-KEM arithmetic: reduction, compression, transforms, encodings, sampling", "statement": "Reductions return the right residue in the stated range; Compress/Decompress are the FIPS 203 functions, compress undoes decompress and decompress errs by at most round(q/2^(d+1)); encodings are the FIPS bit packings and round-trip, a 12-bit field >= q is refused; the number-theoretic transform is evaluation modulo X^2 - gamma_i and the inverse transform inverts it without overflow; binomial and rejection sampling are FIPS 203 Algorithms 8 and 7.", "quantifier": "all coefficients in range, all polynomials, all byte strings", "why_tests_cant": "implementation uses approximations and lazily reduced int16_t values valid only inside ranges", "anchors": ["crypto/mlkem/src/ml_kem_poly.c", "crypto/mlkem/src/ml_kem_ntt.c", "crypto/mlkem/src/ml_kem_pke.c"]}
{"id": "C34", "title": "ML-DSA rounding, hints and packing", "statement": "For ML-DSA-44, -65 and -87: the rounding of every coefficient (Power2Round, Decompose) is the one of FIPS 204; the hint bit the signer computes is MakeHint of FIPS 204 and lets a verifier recover the signer's high bits exactly; the norm checks accept exactly the vectors whose coefficients are below the bound; a signature's hint part is accepted if and only if it is the single canonical encoding of a hint with at most omega ones, and no malformed hint makes the decoder read out of bounds; public keys, secret keys and signatures decode to the values they were encoded from.", "quantifier": "all coefficients, all polynomials and vectors, all hint byte strings, all three parameter sets", "why_tests_cant": "8 million coefficient values times two rounding moduli times every perturbation; hint encodings are unbounded combinations; rare boundary coefficients decide whether a signature verifies", "anchors": ["crypto/mldsa/src/ml_dsa_core.c", "crypto/mldsa/src/ml_dsa_poly.c", "crypto/mldsa/src/ml_dsa_local.h", "crypto/mldsa/src/ml_dsa.c"]}
{"id": "C35", "title": "Stateful hash-based signing never reuses an index", "statement": "For every history of calls on any number of XMSS/XMSS^MT contexts (new, dup, free, choose parameters, generate, import, set public key, sign) in which private keys are installed only at unused positions, no (private seed, index) and no one-time key position is exercised twice, also when signing fails midway; released signatures carry distinct indices below 2^h that a verifier reads back, have the advertised length, and there are at most 2^h; an exhausted key never signs; failing calls release nothing; a copy or half-generated key cannot sign; an exported key may be imported once the source is freed. (SetPrvKey itself accepts a lower index: the discipline is the application's duty.)", "quantifier": "all histories of calls, all failure points inside key generation, import and signing, all parameter sets of both tables, all buffers", "why_tests_cant": "reuse appears only after a failure at a particular point, after 2^h signatures, or through some interleaving of copies and imports", "anchors": ["crypto/hbs/xmss/src/xmss_core.c:CRYPT_XMSS_Sign", "crypto/hbs/xmss/src/xmssmt_core.c:CRYPT_XMSSMT_Sign", "crypto/hbs/xmss/src/xmss_common.c:XmssPrepareSignData,XmssSetPrvKeyCommon", "crypto/hbs/xmss/src/xmss_bds.c:BdsImportStateCommon", "crypto/hbs/xmss/src/xmss_params.c", "crypto/hbs/xmss/src/xmssmt_params.c"]}
{"id": "C36", "title": "AES and SM4 are the standards' block ciphers, and decryption inverts encryption", "statement": "For every AES key of 128, 192 or 256 bits, in both the S-box build and the precomputed-table build, setting the key succeeds and block encryption (decryption) is the FIPS 197 cipher (inverse cipher) under the standard's key schedule, so decrypting an encrypted block gives the block back, also across builds. Keys of any other length are refused. For every SM4 key, round keys and block function are those of GB/T 32907-2016, and encrypting then decrypting any positive number of blocks (in place or to a non-overlapping place) restores the input and changes no other byte.", "quantifier": "all keys of all lengths, all blocks, both builds, all memory contents and placements", "why_tests_cant": "2^384 combinations of key and block; a single wrong table entry is hit by 1 input in thousands; table and S-box builds are never compared", "anchors": ["crypto/sm4/src/crypt_sm4.c", "crypto/aes/src/crypt_aes.c", "crypto/aes/src/crypt_aes_sbox.c", "crypto/aes/src/crypt_aes_tbox.c", "crypto/aes/src/crypt_aes_setkey.c"]}
{"id": "C37", "title": "Stream records are delivered exactly, whatever the fragmentation", "statement": "A call that reads a record delivers it exactly when its header is acceptable (type, version, length limits) and its body completely received; otherwise it reports the interruption of the transport or refuses the header. Over every history nothing is lost, duplicated or reordered, the delivered records depend only on the bytes of the stream and not on how they are split or interrupted, no access leaves the buffer, without read-ahead no byte beyond the current record is taken, and no more than the configured number of empty records in a row is taken.", "quantifier": "all byte streams, all fragmentations and interruptions, all sequences of calls with changing negotiated parameters, all buffer sizes and positions", "why_tests_cant": "streams, split points and histories are unbounded", "anchors": ["tls/record/src/rec_read.c:StreamRead", "tls/record/src/rec_read.c:TryReadOneTlsRecord", "tls/record/src/rec_read.c:TlsCheckRecordHeader", "tls/record/src/rec_read.c:EmptyRecordProcess", "tls/record/src/rec_read.c:ProcessDecryptedRecord", "tls/record/src/rec_buf.c:RecBufResize", "tls/record/src/record.c:RecGetReadBufferSize"]}
{"id": "C38", "title": "The handshake only completes after a conforming message sequence", "statement": "Whatever messages the peer or an attacker sends and in whatever order, HITLS_Connect/HITLS_Accept reports an established connection only after a complete conversation of one of the flows of RFC 5246, GB/T 38636 or RFC 8446: no mandatory message (certificate, signed key exchange, CertificateVerify, Finished) can be skipped, duplicated or reordered; a client that verifies certificates has verified the server's chain and signature unless it resumes or uses a PSK or anonymous suite; a server that requires client certificates has verified one together with its CertificateVerify; the peer's Finished has been verified; below TLS 1.3 it follows a ChangeCipherSpec, and a ChangeCipherSpec never switches keys before they are agreed.", "quantifier": "every configuration, role, protocol version, cipher suite class, and every finite sequence of received messages, ChangeCipherSpec records and sends, with every outcome of every cryptographic check", "why_tests_cant": "the space of message interleavings is unbounded and state machine attacks (SMACK, early CCS) use orders nobody wrote a test for", "anchors": ["tls/handshake/parse/src/parse.c:CheckHsMsgType", "tls/handshake/recv/src/hs_state_recv.c:ProcessHandshakeMsg", "tls/handshake/send/src/hs_state_send.c:ProcessSendHandshakeMsg", "tls/ccs/src/change_cipher_spec.c:ProcessPlainCCS", "tls/handshake/recv/src/recv_finished.c", "tls/handshake/recv/src/recv_certificate.c"]}
{"id": "C39", "title": "A certificate speaks for an identity exactly under the name matching rules", "statement": "Without the partial-wildcard flag a certificate name matches a host name iff the name has no '*' and they are equal ignoring case, or the name is '*.' followed by a domain equal ignoring case to the host name with its first label removed, that domain having at least two labels. With the flag, and a name without empty labels, the first label may hold one '*' standing for any characters of that label. Host verification succeeds iff some dNSName matches, or there is none and the first common name matches; names with embedded NULs never match. An IP identity succeeds iff the text is an IP address and an iPAddress entry has exactly its bytes; URI and SRV identities succeed iff an entry of that type has the same scheme or service ignoring case and a matching host.", "quantifier": "all patterns, host names, certificates' name lists, flags and identity strings", "why_tests_cant": "unbounded strings; a single accepted odd pattern lets a certificate impersonate", "anchors": ["pki/x509_common/src/hitls_x509_util.c: HITLS_X509_MatchPattern, MatchWithSingleWildcard, MatchWithPartialWildcard, X509_VerifyHostname, X509_VerifyIp, X509_VerifyUriId, X509_VerifySrvId, HITLS_X509_VerifyIdentity"]}
{"id": "C40", "title": "X.509 path validation decision", "statement": "HITLS_X509_CertVerify accepts only if the path it built starts with the given certificate, ends in a trust anchor (or the certificate is itself one), has at most maxDepth certificates, every certificate names and is signed by the next one, every certificate is inside its validity period at the reference time, every issuer is a CA allowed to sign certificates (a version 1/2 trust anchor excepted), every pathLenConstraint holds, no unprocessed critical extension occurs, the end entity fits the purpose and, in lite CRL mode, is covered by a current CRL and not listed; and it accepts every conforming path whose issuers are unambiguous. The callback can overrule errors only by returning success for them.", "quantifier": "all peer lists, trust stores, CA directories, CRL lists, parameters and callbacks that never overrule", "why_tests_cant": "combinations of constraints across chain positions of any length, circular input", "anchors": ["pki/x509_verify/src/hitls_x509_verify.c:HITLS_X509_CertVerify", "pki/x509_verify/src/hitls_x509_store.c:HITLS_X509_StoreFindIssuerInTrust", "pki/x509_cert/src/hitls_x509_cert.c:HITLS_X509_CheckIssued"]}
{"id": "C41", "title": "Session serialisation round trip", "statement": "Encoding a session succeeds exactly when the buffer holds all its objects, and the size the library announces is that size. Decoding the encoding of a session whose master key is at most 512 bytes, identifiers at most 32 bytes, server name at most 255 bytes with its terminator and certificate acceptable to the parser returns the same session. Decoding accepts exactly the ordered sequences of admissible objects ending with the ticket age, and never reads outside the buffer.", "quantifier": "all sessions, all buffer sizes, all byte strings given to the decoder, all certificate parsers", "why_tests_cant": "the fields have unbounded contents and the decoder takes attacker-controlled bytes", "anchors": ["tls/feature/session/src/session_enc.c", "tls/feature/session/src/session_dec.c", "bsl/tlv/src/tlv.c"]}
{"id": "C42", "title": "Constant-time selection primitives compute their specification", "statement": "Branch-free is-zero, equal, less-than, greater-or-equal masks, mask selection and constant-time buffer comparison equal the boolean they replace for every operand (all-ones for true, zero for false).", "quantifier": "all 32-bit operands and all buffers of equal length", "why_tests_cant": "2^64 operand pairs", "anchors": ["bsl/include/bsl_bytes.h: Uint32ConstTimeMsb, Uint32ConstTimeIsZero, Uint32ConstTimeEqual, Uint32ConstTimeSelect, Uint8ConstTimeSelect, Uint32ConstTimeLt, Uint32ConstTimeGe, Uint32ConstTimeGt, Uint32ConstTimeLe, ConstTimeMemcmp"]}
{"id": "C43", "title": "IP address text parsing", "statement": "Parsing an address text succeeds exactly on valid dotted/colon notation and returns its bytes.", "quantifier": "all strings", "why_tests_cant": "unbounded strings", "anchors": ["bsl/sal/src/sal_ip_util.c: SAL_ParseIp"]}
{"id": "C44", "title": "Memory UIO is a FIFO byte queue", "statement": "Bytes written are read back in order exactly once for every interleaving of writes, reads and resets, and pending-length queries are exact.", "quantifier": "all histories", "why_tests_cant": "buffer growth/compaction depends on history", "anchors": ["bsl/uio/src/uio_mem.c"]}
{"id": "C45", "title": "PEM: decode inverts encode, the parser is complete and bounded", "statement": "Encoding any non-empty contents under any label yields the RFC 7468 text (begin marker, base64 lines of at most 64 characters, end marker, each followed by a line feed) with its exact length and a NUL, inside the allocated block. Decoding any text under any markers reads only inside the text, succeeds exactly when the text has a begin marker followed by the end marker around base64 of some bytes, returns those bytes and leaves the text after the end marker; so decoding an encoded object, with anything behind and any begin-free text in front, returns its contents. Type detection returns the first row of the type table both of whose markers occur in order. A bundle of any number of objects separated by dash-free text is returned whole and in order; a damaged object after good ones ends the bundle silently with success.", "quantifier": "every contents, label, text, offset, prefix, suffix, and bundle of any length", "why_tests_cant": "texts, prefixes and bundles are unbounded; off-by-one reads at the end of a text and rare placements of markers are not reached by sample files", "anchors": ["bsl/pem/src/bsl_pem.c BSL_PEM_EncodeAsn1ToPem", "bsl/pem/src/bsl_pem.c BSL_PEM_DecodePemToAsn1", "bsl/pem/src/bsl_pem.c BSL_PEM_IsPemFormat", "bsl/pem/src/bsl_pem.c BSL_PEM_GetSymbolAndType", "pki/x509_common/src HITLS_X509_ParsePem"]}
{"id": "C46", "title": "Key wrap computes RFC 3394/5649 and unwrap is its exact inverse", "statement": "Wrapping a plaintext yields the RFC 3394 (or, with padding, RFC 5649) ciphertext under the context's initial value. Unwrapping succeeds exactly on the wraps of some plaintext under the same initial value and returns it; every other input is refused with the output area cleared. No input makes either direction access memory outside its buffers.", "quantifier": "all block permutations, initial values, plaintexts, ciphertexts and buffer sizes", "why_tests_cant": "unbounded", "anchors": ["crypto/modes/src/modes_aes_wrap.c: MODE_WRAP_Encrypt, MODE_WRAP_Decrypt, WRAP_Encrypt, WRAP_Decrypt, WRAP_EncryptPad, WRAP_DecryptPad, WRAP_SetIV"]}
{"id": "C47", "title": "Object identifiers: text and DER conversions are exact, the object table and registrations are consistent", "statement": "The numeric text of OID octets is returned exactly for minimally encoded, complete DER contents within the documented limits and is then the canonical dotted text; octets are returned exactly for well-formed dotted texts within the limits and are then the DER encoding; converting octets to text and back is the identity; neither function accesses memory outside its arrays. The built-in table is sorted as the number search requires and free of duplicates, so number-to-OID and OID-to-number are inverse for every built-in object, after any history of registrations; a registration under an unused number takes effect and is never overwritten; one under a used number reports success and changes nothing.", "quantifier": "every octet string and text of any length; every table in order; every history of registrations", "why_tests_cant": "inputs and histories are unbounded; boundary values (2^57 prefixes, 19-digit numbers, 256-character texts) are not met by samples", "anchors": ["bsl/obj/src/bsl_obj.c BSL_OBJ_GetOidNumericString", "bsl/obj/src/bsl_obj.c BSL_OBJ_GetOidFromNumericString", "bsl/obj/src/bsl_obj.c GetOidIndex", "bsl/obj/src/bsl_obj.c BSL_OBJ_GetCID", "bsl/obj/src/bsl_obj.c BSL_OBJ_GetOID", "bsl/obj/src/bsl_obj.c BSL_OBJ_Create"]}
{"id": "C48", "title": "Version negotiation and downgrade protection", "statement": "Whatever sequence of version-configuration calls was made, the server negotiates exactly the highest version that it enables and the client offers (by supported_versions when it knows 1.3, by the version field otherwise), or fails: it never falls back because a key share group is missing, never goes below its maximum TLS version when TLS_FALLBACK_SCSV is present, and a renegotiation keeps the first version. A server that enables 1.3 and negotiates 1.2 marks its random; a client only goes on with an enabled version; and between a client and a server that both enable 1.3, no change of the ClientHello by a third party makes the client accept the server's hello for an older version. With unchanged hellos both sides end with the highest version they share. A ServerHello without supported_versions whose legacy field names 1.3 is accepted as 1.3 in the pre-1.3 handshake (finding).", "quantifier": "all histories of SetVersion/SetVersionForbid calls, all ClientHellos (version field, supported_versions lists of any length, SCSV), all ServerHellos and random values, stream and datagram", "why_tests_cant": "sets of enabled versions times arbitrary offers and attacker-chosen hellos cannot be enumerated by tests", "anchors": ["tls/config/src/config.c: HITLS_CFG_SetVersion, HITLS_CFG_SetVersionForbid, ChangeMinMaxVersion, CheckRenegotiatedVersion", "tls/handshake/recv/src/recv_client_hello.c: ServerSelectNegoVersion, SelectVersion, CheckSupportVersion, ServerCheckVersionDowngrade", "tls/handshake/recv/src/recv_server_hello.c: GetNegotiatedVersion, CheckDowngradeRandom, ClientCheckVersion", "tls/handshake/send/src/send_server_hello.c: DowngradeServerRandom", "tls/handshake/pack/src/pack_extensions.c: PackClientSupportedVersions"]}
{"id": "C49", "title": "Big-endian integer encoding round-trips", "statement": "Reading back a 16, 24, 32, 48 or 64-bit integer from the bytes it was stored as gives the same integer, and the stored bytes are the network byte order of its value.", "quantifier": "all integers of the width and all buffers of sufficient length", "why_tests_cant": "2^64 values", "anchors": ["bsl/include/bsl_bytes.h: BSL_ByteToUint16, BSL_Uint16ToByte, BSL_ByteToUint24, BSL_Uint24ToByte, BSL_ByteToUint32, BSL_Uint32ToByte, BSL_ByteToUint48, BSL_Uint48ToByte, BSL_ByteToUint64, BSL_Uint64ToByte"]}
{"id": "C50", "title": "TLS 1.3 inner plaintext framing is invertible", "statement": "Whatever content, non-zero content type and padding the sender frames into a TLS 1.3 inner plaintext, the receiver recovers exactly that content and type; the receiver accepts exactly the texts content, type, zeros; oversize is refused; in DTLS 1.3 a protected record always carries at least 16 bytes of ciphertext.", "quantifier": "all contents, types, padding callbacks", "why_tests_cant": "content may itself end in zero bytes; unbounded contents and paddings", "anchors": ["tls/record/src/rec_crypto.c: RecParseInnerPlaintext, DefaultEncryptPreProcess"]}
{"id": "C51", "title": "DTLS record write never reuses a record number under one key", "statement": "Datagrams handed to the transport under one key carry strictly increasing record numbers below 2^48, for every pattern of successful, blocked and failed sends.", "quantifier": "all histories of DTLS writes and key changes with arbitrary IO outcomes", "why_tests_cant": "depends on the interleaving of failures and the 2^48 bound", "anchors": ["tls/record/src/rec_write.c: DtlsRecordWrite, DtlsTrySendMessage, DatagramWrite", "tls/record/src/record.c: REC_ActivePendingState"]}
{"id": "C52", "title": "Adding microseconds to a date is exact", "statement": "For every valid date and every 32-bit microsecond count, the result is the valid date exactly that many microseconds later.", "quantifier": "all valid dates, all 32-bit microsecond counts", "why_tests_cant": "wrap-around of a 32-bit sum near the top of the range is hit by no sampled date", "anchors": ["bsl/sal/src/sal_time.c: BSL_DateTimeAddUs"]}
{"id": "C53", "title": "UTCTime and GeneralizedTime text round-trips", "statement": "The time parser accepts exactly the digit texts of calendar dates from 1970 on (UTCTime: years 1970-2049; GeneralizedTime: up to 9999), with or without the final Z, returns that date and never reads outside its buffer; the encoder writes the digits and Z of every valid date in its range; parsing what was written gives the date back.", "quantifier": "all byte strings, all dates", "why_tests_cant": "millions of dates times malformed texts; pivot years and digit checks are boundary cases", "anchors": ["bsl/asn1/src/bsl_asn1.c: ParseTime, CheckTime, EncodeTime, CheckBslTime, BSL_ASN1_DecodePrimitiveItem"]}
{"id": "C54", "title": "BOOLEAN, BIT STRING and BMPString contents round-trip", "statement": "A BOOLEAN is true iff its one octet is non-zero; BIT STRING encoding keeps all bytes and clears exactly the unused bits of the last one; ASCII strings survive BMPString encoding and parsing.", "quantifier": "all contents, all numbers of unused bits, all strings", "why_tests_cant": "bit-level masks and arbitrary lengths", "anchors": ["bsl/asn1/src/bsl_asn1.c: ParseBool, EncodeBool, ParseBitString, EncodeBitString, ParseBMPString, EncodeBMPString"]}
{"id": "C55", "title": "ASN.1 list decoding visits exactly the items of the buffer", "statement": "BSL_ASN1_DecodeListItem succeeds iff the buffer is exactly a concatenation of items with the expected tag (two layers: whose contents are again such concatenations) and the callback accepts them in document order; nothing is skipped, nothing outside the buffer is read.", "quantifier": "all buffers, all callbacks and callback states", "why_tests_cant": "arbitrary nesting lengths and truncations", "anchors": ["bsl/asn1/src/bsl_asn1.c: BSL_ASN1_DecodeListItem, DecodeTwoLayerListInternal, DecodeTwoLayerList"]}
{"id": "C56", "title": "Big numbers are the integers", "statement": "The signed big-number functions (compare, add, subtract, multiply, square, divide, reduce, shift, and their variants with a word) compute the integer operation and return a normalised number without negative zero; division by zero is an error. Two exceptions are stated exactly: BN_SubLimb into an object that held a negative number, and BN_ModLimb of a negative multiple of the modulus.", "quantifier": "all integers of any size, all signs, all word sizes of the build", "why_tests_cant": "carry, sign and normalisation errors need rare combinations of operands", "anchors": ["crypto/bn/src/bn_operation.c: BN_Add, BN_Sub, BN_Mul, BN_Div, BN_Mod, BN_Rshift, BN_Lshift", "crypto/bn/src/bn_ucal.c: UAdd, USub, UDec"]}
{"id": "C57", "title": "Fast multiplications are exact", "statement": "In a build with the unrolled and divide-and-conquer multiplications, multiplying or squaring big numbers of any size gives the exact product, in the library's normal form and with the right sign; the workspace the library computes for a size is never exceeded, no workspace is used for the even sizes up to eight words for which none is passed, and the constant-time and the ordinary variants write the same words as the schoolbook multiplication.", "quantifier": "all operand sizes and all word values, for every word width from four bits", "why_tests_cant": "carries that only happen for rare operands, and a workspace bound that depends on a recursion of unbounded depth; the operand space is infinite", "anchors": ["crypto/bn/src/bn_comba.c: SqrComba8, SqrComba6, SqrComba4, SqrComba, MulComba8, MulComba6, MulComba4, MulComba, SpaceSize, BinCmpSame, ABS_Sub, MulConquer, SqrConquer", "crypto/bn/src/bn_operation.c: BnMulConquer, BN_Mul, BN_Sqr"]}
{"id": "C58", "title": "Greatest common divisor and modular inverse", "statement": "BN_Gcd returns the greatest common divisor of any two non-zero integers; BN_ModInv returns the inverse between zero and the modulus exactly when the operands are coprime and an error otherwise, for every modulus of magnitude at least two; BN_Lcm returns the least common multiple up to sign when the destination is not the second operand.", "quantifier": "all integers of any size", "why_tests_cant": "the Euclidean loops run for a number of rounds that depends on the operands", "anchors": ["crypto/bn/src/bn_gcd.c: BN_Gcd, BN_ModInv, BN_Lcm"]}
{"id": "C59", "title": "Textual IP addresses are accepted exactly when well formed", "statement": "Parsing a string as an IP address succeeds iff it has at most 45 characters and is a dotted decimal IPv4 address (four numbers 0..255 without leading zeros) or an RFC 4291 IPv6 address (eight groups of one to four hex digits, one '::' standing for at least one zero group, the last two groups possibly dotted decimal); the 4 or 16 bytes returned are the address denoted, and an IPv4 address has exactly one accepted spelling.", "quantifier": "all strings", "why_tests_cant": "unbounded strings; certificate identity checks rest on it, and odd spellings (octal, two '::', empty groups) are where parsers differ", "anchors": ["bsl/sal/src/sal_ip_util.c: SAL_ParseIp, SAL_ParseIpv4, SAL_ParseIpv6, ParseIpv6HexSegments, ExpandSegments"]}
{"id": "C60", "title": "Hash-based signatures verify", "statement": "For every parameter set of XMSS, XMSS^MT and SLH-DSA, every message, randomiser and index, and every behaviour of the hash functions, a signature returned by the signing functions has exactly the length of the parameter set and is accepted by the verification functions under the root that key generation computes; signing fails only when a hash function fails; trees, WOTS+ and FORS compute the values of RFC 8391 and FIPS 205; for two different messages no WOTS+ signature can be turned into the other by walking chains forward; the SLH-DSA message representative is injective in context, mode and message", "quantifier": "all parameter sets, messages, randomisers, indices, contexts and deterministic hash families that return n bytes or fail", "why_tests_cant": "Verification re-derives a path through up to 2^60 leaves from partial chains; tests sign a handful of messages with a handful of indices, and a wrong sibling, address or digit at a rarely used level or leaf shows only there", "anchors": ["crypto/hbs/common/hbs_wots.c:HbsWots_Sign,HbsWots_PkFromSig", "crypto/hbs/common/hbs_tree.c:HbsTree_Sign,HbsTree_Verify,HbsHyperTree_Sign,HbsHyperTree_Verify", "crypto/hbs/slh_dsa/src/slh_dsa_fors.c:ForsSign,ForsPkFromSig", "crypto/hbs/slh_dsa/src/slh_dsa_core.c:CRYPT_SLH_DSA_Sign,CRYPT_SLH_DSA_Verify", "crypto/hbs/xmss/src/xmss_core.c:CRYPT_XMSS_Verify", "crypto/hbs/xmss/src/xmssmt_core.c:CRYPT_XMSSMT_Verify"]}
{"id": "C61", "title": "ML-KEM: both sides derive the same key, bad ciphertexts are rejected implicitly", "statement": "Generated keys satisfy t = A s + e in R_q and are laid out as FIPS 203 says; encryption and decryption compute the FIPS ring expressions for every input without overflow; whenever the noise polynomial of an encapsulation lies in [-832, 831], decapsulation with the (re-imported) private key returns the encapsulated key; otherwise-formed ciphertexts give J(z || c), never an error or the real key; a private key whose stored hash is wrong is an error; an imported key with a coefficient >= q is refused.", "quantifier": "all parameter sets, all seeds, messages and ciphertexts, all hash functions", "why_tests_cant": "2^(8*768) ciphertexts; failures hide in rare overflows", "anchors": ["crypto/mlkem/src/ml_kem_pke.c:MLKEM_KeyGenInternal,MLKEM_EncapsInternal,MLKEM_DecapsInternal,MLKEM_DecodeDk,MLKEM_DecodeEk", "crypto/mlkem/src/ml_kem_poly.c"]}
{"id": "C62", "title": "ML-DSA key generation, signing and verification", "statement": "For ML-DSA-44, -65 and -87: every signature the library returns for a message under a key pair it generated (or under an imported secret key whose public key it derived and checked) verifies for that message; verification succeeds exactly when ML-DSA.Verify_internal of FIPS 204 accepts and reports a data error exactly when the signature is malformed or its response is too large; generated keys satisfy the relations of ML-DSA.KeyGen_internal and returned signatures those of an accepted round of ML-DSA.Sign_internal; the polynomial arithmetic is exact arithmetic in Z_q[X]/(X^256+1) without overflow; pure and pre-hash messages with different contexts never share an encoding.", "quantifier": "all seeds, keys, messages, contexts, randomisers, signatures and hash functions, all three parameter sets, any number of rejected rounds", "why_tests_cant": "correctness must hold for every key, message and chain of rejections; overflow in the lazily reduced transforms and wrong acceptance happen on inputs random tests practically never hit", "anchors": ["crypto/mldsa/src/ml_dsa_core.c:MLDSA_KeyGenInternal", "crypto/mldsa/src/ml_dsa_core.c:MLDSA_SignInternal", "crypto/mldsa/src/ml_dsa_core.c:MLDSA_VerifyInternal", "crypto/mldsa/src/ml_dsa_ntt.c", "crypto/mldsa/src/ml_dsa.c:MLDSAEncodeInputData"]}
{"id": "C63", "title": "Elliptic-curve arithmetic is the group law", "statement": "For the curves y^2 = x^3 - 3x + b with the generic NIST/SM2 method, point doubling, repeated doubling, addition and addition of an affine point give the sum in the group of the curve for all operands, including equal and opposite points, points of order two and the point at infinity, and also when the result overwrites the operand. ECC_PointMul gives k times the point for every scalar and every nonzero blinding number, ECC_PointMulAdd gives k1*G + k2*P, the conversion to affine coordinates gives the reduced coordinates and fails exactly at infinity, the comparison of points decides equality, and the check of a point accepts exactly the solutions of the curve equation. Recoding a scalar into signed windows never leaves its arrays.", "quantifier": "All prime fields with a correct routine set (in particular the library's big numbers modulo a NIST prime or the SM2 prime), all points and all Jacobian representations of them, all scalars of any size, all blinding numbers.", "why_tests_cant": "The exceptional cases of the formulas (equal, opposite, infinite operands in the middle of a ladder) arise for a negligible share of inputs, and scalars are unbounded.", "anchors": ["crypto/ecc/src/ecp_nist.c: ECP_NistPointDouble, ECP_NistPointMultDouble, ECP_NistPointAddAffine, ECP_NistPointAdd", "crypto/ecc/src/ecp_simple.c: ECP_PointMul, ECP_PointMulFast, ECP_PointMulAdd, ECC_ReCodeK, ECC_PointCmp, ECP_PointOnCurve, ECP_Point2Affine", "crypto/ecc/src/ecc.c: ECC_PointMul, ECC_PointMulAdd, ECC_Point2Affine"]}
{"id": "C64", "title": "Big-number conversions to and from bytes, hexadecimal and decimal are exact", "statement": "Reading big-endian bytes gives the number they stand for, whatever leading zeros there are. Writing a number gives its big-endian bytes, padded to the requested length or minimal, and is refused exactly if the buffer is too short. A text is read as a hexadecimal or decimal number exactly if it is an optional minus sign followed by digits within the size limit, and then gives that number; the text written for a number stands for it, has no superfluous leading zeros, and never overruns the estimated length. Writing and reading back gives the same object.", "quantifier": "every number, every byte string and every text", "why_tests_cant": "Word boundaries, digit groups of 19, sign and zero handling and the length estimate interact; only a sample of lengths and values can be tried.", "anchors": ["crypto/bn/src/bn_utils.c:BN_Bin2Bn", "crypto/bn/src/bn_utils.c:BN_Bn2Bin", "crypto/bn/src/bn_utils.c:BN_Bn2BinFixZero", "crypto/bn/src/bn_utils.c:BN_Hex2Bn", "crypto/bn/src/bn_utils.c:BN_Bn2Hex", "crypto/bn/src/bn_utils.c:BN_Dec2Bn", "crypto/bn/src/bn_utils.c:BN_Bn2Dec"]}
{"id": "C65", "title": "ECDSA and SM2 sign and verify exactly as specified, and every signature verifies", "statement": "For every prime-order group and every key, CRYPT_ECDSA_VerifyData and the SM2 verification accept a pair (r, s) exactly when it is a valid signature of the message's number for the public key: both parts in [1, n-1] and the first coordinate of the combined point congruent to r. Signing delivers the signature of the first of at most 100 secrets for which one exists, and an error if none does. Every signature delivered is accepted with the signer's public key. The number of an ECDSA message is its leftmost bits, as many as the order has.", "quantifier": "all curves with a prime order, all private and public keys, all messages below 2^29 bytes, all sequences of random secrets and blinding numbers, all signatures", "why_tests_cant": "the keys, secrets and signatures range over a group of about 2^256 elements; rejected secrets (r = 0, s = 0, r + k = n) are never met by random tests", "anchors": ["crypto/ecdsa/src/ecdsa.c:GetBnByData,EcdsaSignCore,VerifyCheckSign,EcdsaVerifyCore,CRYPT_ECDSA_VerifyData", "crypto/sm2/src/sm2_sign.c:Sm2CalcPrvInv,Sm2SignCore,Sm2VerifyCore"]}
{"id": "C66", "title": "The ECDH shared key is the specified coordinate and both parties obtain the same", "statement": "CRYPT_ECDH_ComputeShareKey returns the first coordinate of the private key times the peer's point as big-endian bytes of the length of the field modulus; it fails exactly when that point is at infinity or the room is too small. Two parties that use each other's public point obtain the same bytes, whatever their blinding numbers are.", "quantifier": "all curves with a prime order, all pairs of private keys, all blinding numbers, all buffer lengths", "why_tests_cant": "pairs of keys cannot be enumerated, and leading zero bytes of the coordinate are met once in 256 runs", "anchors": ["crypto/ecdh/src/ecdh.c:CRYPT_ECDH_ComputeShareKey", "crypto/ecc/src/ecc.c:ECC_GetPoint,ECC_PointCheck,ECC_GetPointDataX"]}
{"id": "C67", "title": "Simultaneous exponentiation is exact", "statement": "The product of two modular powers computed by the big-number library in one pass is b1^e1*b2^e2 mod m for every odd modulus, every pair of bases below the modulus and every pair of non-negative exponents; a negative exponent or a base not below the modulus is refused. A zero base gives zero, also with exponent zero.", "quantifier": "all odd moduli, all bases, all exponents of any length", "why_tests_cant": "The windows of the two exponents interleave with their own alignment; a test covers a handful of exponent pairs out of infinitely many.", "anchors": ["crypto/bn/src/bn_mont.c:BN_MontExpMul", "crypto/bn/src/bn_mont.c:MontExpMul", "crypto/bn/src/bn_mont.c:MontExpOddReady", "crypto/bn/src/bn_mont.c:GetOddLimbBin"]}
{"id": "C68", "title": "DSA signing and verification follow FIPS 186-4", "statement": "For parameters with a prime order q, an odd p and g of order q: signing returns the pair (r, s) of the standard for the first of at most 100 random secrets that gives non-zero r and s, whatever the blinding number is; verification accepts exactly the valid pairs, and nothing at all for a public key that is zero or not below p; each signature produced is accepted with the signer's public key. The data are reduced to their leftmost bytes, which is the standard's number exactly when the order is a whole number of bytes long.", "quantifier": "all parameters, keys, data, random draws and candidate signatures", "why_tests_cant": "A test exercises a few signatures; acceptance of every forged or out-of-range pair and every order length cannot be enumerated.", "anchors": ["crypto/dsa/src/dsa_core.c:DSA_Bits2Int", "crypto/dsa/src/dsa_core.c:CalcSValue", "crypto/dsa/src/dsa_core.c:SignCore", "crypto/dsa/src/dsa_core.c:VerifyCore", "crypto/dsa/src/dsa_core.c:VerifyCheckSign", "crypto/dsa/src/dsa_core.c:CRYPT_DSA_VerifyData"]}
{"id": "C69", "title": "Signature encoding is DER and decoding is strict about structure", "statement": "For every pair of positive numbers the signature encoder writes the one DER encoding of SEQUENCE { r INTEGER, s INTEGER } or reports that the buffer is too small; a buffer of the length the library computes from the sizes is always enough; zero and negative numbers are refused. The decoder accepts exactly a sequence of two non-negative, minimally encoded INTEGERs that fills the input, with nothing after, between or inside, and returns their values; decoding an encoded signature returns the same numbers.", "quantifier": "all numbers of up to 2^24 bytes, all byte strings of up to 2^26 bytes, all buffer sizes", "why_tests_cant": "Malformed signatures are infinitely many: any nesting of lengths, missing or additional bytes.", "anchors": ["crypto/codecsdata/src/crypt_encode.c:CRYPT_EAL_EncodeSign", "crypto/codecsdata/src/crypt_encode.c:CRYPT_EAL_DecodeSign", "crypto/codecsdata/src/crypt_encode.c:CRYPT_EAL_GetSignEncodeLen", "bsl/asn1/src/bsl_asn1.c:BSL_ASN1_DecodeTemplate", "bsl/asn1/src/bsl_asn1.c:BSL_ASN1_EncodeTemplate"]}
{"id": "C70", "title": "RSA public and private operations compute the powers, in every history", "statement": "The public operation on an input below the modulus N returns input^e mod N on the length of the modulus, and an error for every other input. For a key with odd primes p and q and exponents inverse modulo lcm(p-1, q-1), in the form with Chinese-remainder numbers or without, each private operation returns input^d mod N or an error, whatever operations came before on the context and whatever the random generator gave to the blinding; it returns the power for every input below N when the blinding numbers are coprime to N. Each operation inverts the other. The exact boundaries are stated: one failure of the random generator at the first operation disables the context for good, a key of n and d alone cannot be used with blinding, and a coefficient qInv longer than the modulus is written outside of its buffer.", "quantifier": "all keys, inputs, random draws and histories of operations on one context", "why_tests_cant": "A test uses a few keys and messages; equality of the recombined blinded result with the plain power for every input, key and sequence of squared blinding factors cannot be enumerated.", "anchors": ["crypto/rsa/src/rsa_encdec.c:CRYPT_RSA_PubEnc", "crypto/rsa/src/rsa_encdec.c:CRYPT_RSA_PrvDec", "crypto/rsa/src/rsa_encdec.c:RSA_PrvProcess", "crypto/rsa/src/rsa_encdec.c:NormalDecProcedure", "crypto/rsa/src/rsa_encdec.c:RSA_GetPublicExp", "crypto/rsa/src/rsa_blinding.c:RSA_BlindCreateParam", "crypto/rsa/src/rsa_blinding.c:RSA_BlindCovert", "crypto/bn/src/bn_mont.c:MontMulCore"]}
{"id": "C71", "title": "RSA keys: what is accepted is exactly known, and accepted RFC keys work", "statement": "A private key is accepted exactly when one of three choices of members is given (none of the optional ones, the primes, or all), the modulus has 512 to 16384 bits, 1 < d < n, e < n, and, when the remainder numbers are to be computed, the second prime has an inverse modulo the first; every other input is refused. The members are set as given and the missing remainder numbers are d mod p-1, d mod q-1 and the inverse of q modulo p. A key of RFC 8017 that is accepted, in any of the three forms, is one for which C70 holds. A public key is accepted exactly when the modulus is odd and of 512 to 16384 bits, 1 < e < n, and e is below 2^64 for moduli of more than 384 bytes. From two different odd primes key generation delivers a matching pair exactly when e has an inverse modulo lcm(p-1, q-1), and its pair check never refuses it. The boundary is stated: nothing ties the modulus to the primes.", "quantifier": "all inputs to setting a private or public key, all pairs of primes and exponents", "why_tests_cant": "A test tries some keys; the exact set of accepted inputs and the correctness of all derived numbers needs a proof.", "anchors": ["crypto/rsa/src/rsa_keyop.c:CRYPT_RSA_SetPrvKey", "crypto/rsa/src/rsa_keyop.c:CRYPT_RSA_SetPubKey", "crypto/rsa/src/rsa_keyop.c:SetPrvBasicCheck", "crypto/rsa/src/rsa_keygen.c:RSA_CalcPrvKey", "crypto/rsa/src/rsa_keygen.c:RsaPrvKeyCalcND", "crypto/rsa/src/rsa_keygen.c:RSA_KeyValidationCheck"]}
{"id": "C72", "title": "Diffie-Hellman: both parties get the same secret, written in full length, and only valid peers are accepted", "statement": "Setting finite-field Diffie-Hellman parameters succeeds exactly for a modulus of 768 to 8192 bits that is odd, a generator between 2 and p-2 and, if given, an odd order of at least 160 bits that divides p-1. A private key is accepted exactly between 1 and q-1 (or p-2). Key generation uses the first of at most 100 drawn candidates that is in range, and the public key is the generator to that power. Computing the shared key succeeds exactly when the buffer holds the modulus' length and the peer's key is between 2 and p-2 and, for groups with a given order that are not the known safe-prime groups, in the subgroup; the result is the peer's key to the power of the private key modulo p, left-padded with zeros to the length of the modulus (or minimal when configured so), with nothing written beyond. Two parties with valid keys obtain the same bytes.", "quantifier": "all parameters, keys, drawn random numbers, buffers and padding modes", "why_tests_cant": "the leading-zero case occurs in one of 256 exchanges, and the range and subgroup conditions are over numbers of thousands of bits", "anchors": ["crypto/dh/src/dh_core.c: CRYPT_DH_SetPara, ParaDataCheck, CRYPT_DH_Gen, CRYPT_DH_ComputeShareKey, CheckAndFillZero, CRYPT_DH_SetPrvKey, CRYPT_DH_SetPubKey, CRYPT_DH_GetPubKey", "crypto/bn/src/bn_basic.c: BN_SecBits"]}
{"id": "C73", "title": "RSA blind signatures: the unblinded signature is the signature of the message, and the state of the requester is known after every history", "statement": "Setting a blinding factor succeeds exactly for a number between 1 and n-1 that has an inverse. Blinding succeeds exactly for encoded messages prime to the modulus once a usable factor exists or is drawn, and yields message times factor^e modulo n. The signer signs exactly the inputs of full length below the modulus and returns nothing that does not verify. Unblinding what the signer returns gives, on the length of the modulus, the RSA signature of the encoded message, which the public operation turns back into the message. After every history of set, blind and unblind operations in which no set failed the context holds no factor or a correct one. RFC 9474's unlinkability does not hold for two blindings with one context: the factor is reused; and a failed set spoils a factor in place.", "quantifier": "all keys made of two odd primes, all factors, drawn numbers, messages and histories", "why_tests_cant": "the identities hold for numbers of thousands of bits and for all histories; linkability relates two executions", "anchors": ["crypto/rsa/src/rsa_encdec.c: BssaBlind, BlindSign, BssaUnBlind", "crypto/rsa/src/rsa_ctrl.c: RsaSetBssa", "crypto/rsa/src/rsa_blinding.c: RSA_BlindCreateParam"]}
{"id": "C74", "title": "Paillier: keys, encryption, decryption and addition of ciphertexts", "statement": "A key made from two primes is the one of the scheme (the least common multiple of p-1 and q-1 and its inverse modulo n) and is made exactly when the inverse exists. Encrypting succeeds exactly for messages below n and gives g^m * r^n mod n^2 for the first drawn r prime to n. Decrypting takes exactly the ciphertexts of the length asked for that are below n^2 and prime to n; every encryption of m with any r, padded to that length, gives back m, and the sum of two ciphertexts decrypts to the sum of the messages modulo n. Keys that are set are taken exactly when n^2 is the square of n. The length asked for is not that of what encryption returns.", "quantifier": "all primes, keys, messages, random numbers, ciphertexts and buffer lengths", "why_tests_cant": "The messages and random numbers are numbers of thousands of bits; the tests use a few keys and fixed ciphertexts of the full length.", "anchors": ["crypto/paillier/src/paillier_encdec.c CRYPT_PAILLIER_Encrypt", "crypto/paillier/src/paillier_encdec.c CRYPT_PAILLIER_Decrypt", "crypto/paillier/src/paillier_encdec.c CRYPT_PAILLIER_Add", "crypto/paillier/src/paillier_keygen.c CRYPT_PAILLIER_Gen", "crypto/paillier/src/paillier_keyop.c CRYPT_PAILLIER_SetPubKey"]}
{"id": "C75", "title": "ElGamal: generation, encryption and decryption", "statement": "A generated key has the modulus k*q+1 for the prime q and the number k that were drawn, as base the first drawn number whose square and whose q-th power are not one modulo it, and as public value the base to the private exponent. With an odd modulus that fits the length of the context every message of at most that length is encrypted to (g^r, m*y^r) for the first drawn r prime to q-1. Decryption takes exactly the ciphertexts whose halves have the length of the context and are below the modulus and prime to it. Every encryption of a message that is prime to the modulus decrypts to the message modulo the modulus, and an encryption of any other message (zero among them) is refused. Nothing makes the modulus a prime: for an odd k it is even, and a context that generated such a key encrypts nothing.", "quantifier": "all primes, numbers drawn, exponents, messages, ciphertexts, lengths of buffers and contexts", "why_tests_cant": "the keys, messages and random numbers are unbounded; the even modulus depends on a number the test does not choose", "anchors": ["crypto/elgamal/src/elgamal_keygen.c: CRYPT_ELGAMAL_Gen, CRYPT_ELGAMAL_GetBits", "crypto/elgamal/src/originalroot.c: OriginalRoot", "crypto/elgamal/src/elgamal_encdec.c: CRYPT_ELGAMAL_Encrypt, CRYPT_ELGAMAL_Decrypt"]}
{"id": "C76", "title": "CMAC and CBC-MAC: any way of giving the message yields the specified code", "statement": "After the key is set or the context is restarted, whatever was done before, giving a message in any sequence of parts (empty ones included) and finishing returns the CMAC of SP 800-38B of the concatenation, for every block cipher with blocks of 8 or 16 bytes; the same holds for CBC-MAC with zero padding. A message has exactly one CMAC. A buffer shorter than a block is refused, and so is a CBC-MAC whose padding is not set. With zero padding a message with a partial last block and that message with a zero byte appended have the same CBC-MAC.", "quantifier": "all block ciphers, keys, messages, partitions of the message into parts, previous states of the context and buffer lengths", "why_tests_cant": "the partitions and the messages are unbounded, and the cipher is arbitrary", "anchors": ["crypto/cmac/src/cmac.c: CRYPT_CMAC_Init, CRYPT_CMAC_Update, CRYPT_CMAC_Final, CRYPT_CMAC_Reinit", "crypto/cmac/src/cbc_mac.c: CRYPT_CBC_MAC_Update, CRYPT_CBC_MAC_Final", "crypto/cmac/src/cipher_mac_common.c: CipherMacUpdate"]}
{"id": "C77", "title": "SipHash: any way of giving the message yields the specified hash", "statement": "A key is taken exactly when it has 16 bytes. After the key is set, or after restarting a context that has it, whatever was done before, giving a message of less than 2^32 bytes in any sequence of parts and finishing returns SipHash-c-d of the concatenation with 64 or 128 bits, for any numbers of rounds, and the context keeps the key. A message has exactly one hash. A part with which the message would reach 2^32 bytes is refused, and so is a buffer that is too short.", "quantifier": "all keys, messages, partitions of the message into parts, round numbers, previous states of the context and buffer lengths", "why_tests_cant": "the partitions and the messages are unbounded", "anchors": ["crypto/siphash/src/siphash.c: CRYPT_SIPHASH_Init, CRYPT_SIPHASH_Update, CRYPT_SIPHASH_Final, CRYPT_SIPHASH_Reinit"]}
{"id": "C78", "title": "scrypt is the function of RFC 7914", "statement": "A derivation with a set of parameters the library accepts gives exactly the output of scrypt of RFC 7914 (Salsa20/8, scryptBlockMix, scryptROMix, PBKDF2 before and after). It accepts exactly the cost parameters the RFC allows whose working memory is below 4 GiB, with a non-empty output, and refuses all others. The size of the working memory is never a wrapped 32-bit value and every access of the table is inside it.", "quantifier": "every password, salt, N, r, p, output length, and every function in the place of PBKDF2 that returns the length asked for", "why_tests_cant": "Test vectors cover a handful of parameter sets; the index into the table depends on the data, and the overflow checks matter only at sizes no test allocates", "anchors": ["crypto/scrypt/src/scrypt.c:CRYPT_SCRYPT", "crypto/scrypt/src/scrypt.c:CRYPT_SCRYPT_Derive", "crypto/scrypt/src/scrypt.c:SCRYPT_CheckParam", "crypto/scrypt/src/scrypt.c:SCRYPT_ROMix", "crypto/scrypt/src/scrypt.c:SCRYPT_BlockMix"]}
{"id": "C79", "title": "One-time passwords: the code is that of RFC 4226 and RFC 6238, and validation accepts exactly the codes of the window", "statement": "In any history of configuration calls, a context with a key generates for a counter (or for the time step of a time) the decimal text of exactly the configured number of digits of the truncated MAC of RFC 4226, never reading outside the MAC. Validation with a counter accepts exactly the code of that counter. Validation at a time at least 'window' steps after the start accepts exactly the codes of the steps at most 'window' steps away and reports the earliest of them, so that a code made on a clock within the window is accepted.", "quantifier": "every history of configuration calls, key, counter, time, candidate code and MAC with tags of the length of its hash", "why_tests_cant": "Test vectors check a few counters; leading zeros, the choice of the offset in the MAC, and the ends of the window depend on values tests do not reach", "anchors": ["auth/otp/src/otp.c:HITLS_AUTH_OtpGen", "auth/otp/src/otp.c:HITLS_AUTH_OtpValidate", "auth/otp/src/otp.c:GenericOtpGen", "auth/otp/src/otp_util.c:HITLS_AUTH_OtpCtxCtrl"]}
