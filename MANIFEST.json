{
 "claims": [
  {
   "property": "C01",
   "status": "proved",
   "theorems": [
    "Verif.Tls.AntiReplay.antiReplay_refines_spec",
    "Verif.Tls.AntiReplay.antiReplay_no_duplicate",
    "Verif.Tls.AntiReplay.antiReplay_wrap_counterexample"
   ],
   "note": "Refinement to the set-based receiver for all histories with seq+64 < 2^64; the wrap counterexample shows why the range is needed (DTLS numbers are 48-bit)."
  },
  {
   "property": "C02",
   "status": "proved",
   "theorems": [
    "Verif.Tls.RecWrite.seq_strictly_increasing",
    "Verif.Tls.RecWrite.nonce_never_reused",
    "Verif.Tls.RecWrite.wire_is_records",
    "Verif.Tls.RecWrite.refuse_after_max",
    "Verif.Tls.RecWrite.max_latches",
    "Verif.Tls.RecWrite.seq_contiguous"
   ],
   "note": "stream transports; arbitrary partial/blocked/failed sends"
  },
  {
   "property": "C03",
   "status": "proved",
   "theorems": [
    "Verif.Tls.Aead.nonce_spec",
    "Verif.Tls.Aead.nonce_injective",
    "Verif.Tls.Aead.aad_spec12",
    "Verif.Tls.Aead.aad_spec13",
    "Verif.Tls.Aead.aad12_injective",
    "Verif.Tls.Aead.open_seal",
    "Verif.Tls.Aead.accepted_binds12",
    "Verif.Tls.Aead.accepted_binds13"
   ],
   "note": "AEAD primitive abstract; DTLS 1.3 header AAD is passed through as given"
  },
  {
   "property": "C04",
   "status": "proved",
   "theorems": [
    "Verif.Tls.Reass.reass_refines_spec",
    "Verif.Tls.Reass.reass_memory_safe",
    "Verif.Tls.Reass.reass_delivers_only_received",
    "Verif.Tls.Reass.reass_delivers_peer_messages",
    "Verif.Tls.Reass.reass_delivers_when_complete"
   ],
   "note": "UDP path; repeated-ClientHello reset and renegotiation state not modelled"
  },
  {
   "property": "C05",
   "status": "proved",
   "theorems": [
    "Verif.Tls.Cbc.decryptMtE_iff",
    "Verif.Tls.Cbc.decryptMtE_error",
    "Verif.Tls.Cbc.roundtripMtE",
    "Verif.Tls.Cbc.decryptEtM_iff",
    "Verif.Tls.Cbc.roundtripEtM"
   ],
   "note": "hash and block cipher abstract"
  },
  {
   "property": "C06",
   "status": "proved",
   "theorems": [
    "Verif.Tls.KeyBlock.keyBlock_spec",
    "Verif.Tls.KeyBlock.peers_agree",
    "Verif.Tls.KeyBlock.direction_spec",
    "Verif.Tls.KeyBlock.keyBlock_bounds"
   ],
   "note": "PRF abstract"
  },
  {
   "property": "C07",
   "status": "proved",
   "theorems": [
    "Verif.Bsl.Base64.encode_spec",
    "Verif.Bsl.Base64.decode_iff",
    "Verif.Bsl.Base64.roundtrip"
   ],
   "note": "One-shot encode/decode equal the RFC 4648 bit-string specification for every input and buffer size."
  },
  {
   "property": "C08",
   "status": "proved",
   "theorems": [
    "Verif.Bsl.Base64.decode_iff",
    "Verif.Bsl.Base64.decode_bounds",
    "Verif.Bsl.Base64.update_bounds",
    "Verif.Bsl.Base64.decodeFinal_bounds"
   ],
   "note": "Accepts exactly the padded RFC 4648 texts with blanks (non-zero trailing bits are accepted and specified as such by Spec.Denotes); output never exceeds the buffer."
  },
  {
   "property": "C09",
   "status": "proved",
   "theorems": [
    "Verif.Bsl.Base64.encodeStream_spec",
    "Verif.Bsl.Base64.streamText_noNewline",
    "Verif.Bsl.Base64.decodeStream_iff",
    "Verif.Bsl.Base64.stream_roundtrip",
    "Verif.Bsl.Base64.encodeUpdate_bounds",
    "Verif.Bsl.Base64.encodeFinal_bounds",
    "Verif.Bsl.Base64.decodeStream_accepts_empty"
   ],
   "note": "Chunking independence of streaming encode and decode."
  },
  {
   "property": "C10",
   "status": "proved",
   "theorems": [
    "Verif.Bsl.Asn1.decodeLen_iff",
    "Verif.Bsl.Asn1.decodeLen_in_bounds",
    "Verif.Bsl.Asn1.decodeItem_in_bounds",
    "Verif.Bsl.Asn1.decodeItem_iff",
    "Verif.Bsl.Asn1.encodeLength_valid",
    "Verif.Bsl.Asn1.encodeLength_shortest",
    "Verif.Bsl.Asn1.decodeLen_encodeLength",
    "Verif.Bsl.Asn1.decodeItem_encodeItem",
    "Verif.Bsl.Asn1.getEncodeLen_exact",
    "Verif.Bsl.Asn1.getCompleteLen_exact",
    "Verif.Bsl.Asn1.decodeLen_max_refused",
    "Verif.Bsl.Asn1.decodeLen_accepts_nonminimal"
   ],
   "note": "exact acceptance set, bounds, minimality and round trip; two witness theorems record the largest length being refused and BER (non-minimal) fields being accepted"
  },
  {
   "property": "C11",
   "status": "proved",
   "theorems": [
    "Verif.Bsl.Asn1.encodeInt_legal",
    "Verif.Bsl.Asn1.legal_unique",
    "Verif.Bsl.Asn1.decodeInt_iff",
    "Verif.Bsl.Asn1.decodeInt_encodeInt",
    "Verif.Bsl.Asn1.encodeLimb_value",
    "Verif.Bsl.Asn1.parseInt_iff",
    "Verif.Bsl.Asn1.limb_int_roundtrip",
    "Verif.Bsl.Asn1.decodeInt_accepts_empty"
   ],
   "note": "empty contents are accepted by the template decoder (witness)"
  },
  {
   "property": "C12",
   "status": "proved",
   "theorems": [
    "Verif.Bsl.Asn1.Utf8.toUtf8String_iff",
    "Verif.Bsl.Asn1.Utf8.toUtf8String_in_bounds",
    "Verif.Bsl.Asn1.Utf8.toUtf8String_utf8"
   ],
   "note": "specification is Lean core's String.utf8EncodeChar"
  },
  {
   "property": "C13",
   "status": "proved",
   "theorems": [
    "Verif.Bsl.Tlv.pack_iff",
    "Verif.Bsl.Tlv.parse_iff",
    "Verif.Bsl.Tlv.parse_in_bounds",
    "Verif.Bsl.Tlv.findValuePos_iff",
    "Verif.Bsl.Tlv.findValuePos_value",
    "Verif.Bsl.Tlv.pack_parse",
    "Verif.Bsl.Tlv.find_misses_trailing_empty"
   ],
   "note": "searching misses an empty TLV at the very end (witness, stated in findValuePos_iff)"
  },
  {
   "property": "C14",
   "status": "proved",
   "theorems": [
    "Verif.Bsl.LinkedList.run_refines",
    "Verif.Bsl.LinkedList.step_refines",
    "Verif.Bsl.LinkedList.concat_spec",
    "Verif.Bsl.LinkedList.concat_self_ring"
   ],
   "note": "Histories over 15 operations (all insert positions, delete/detach/deleteNode/deleteAll, cursor moves, search, index, reverse, sort) from the empty list, for every allocator behaviour, refine a sequence with cursor; heap and pointers are modelled, undefined behaviour and runaway loops are excluded. concat of two disjoint lists is a separate theorem. Copy (which calls user callbacks) is not modelled."
  },
  {
   "property": "C15",
   "status": "proved",
   "theorems": [
    "Verif.Bsl.Hash.run_refines",
    "Verif.Bsl.Hash.step_refines",
    "Verif.Bsl.Hash.iterate_all",
    "Verif.Bsl.Hash.erase_next",
    "Verif.Bsl.Hash.create_too_large"
   ],
   "note": "Every history of insert/put/at/erase/clear/size, every allocator behaviour, every hash function that respects the matching relation. Iteration visits every entry once. Finding F-HASH-1."
  },
  {
   "property": "C16",
   "status": "proved",
   "theorems": [
    "Verif.Bsl.Avl.run_refines",
    "Verif.Bsl.Avl.duplicate_loses",
    "Verif.Bsl.Avl.duplicate_root"
   ],
   "note": "All histories without duplicate insertion (callers search first) and at most 2^32-2 entries; finding F-AVL-1 for duplicate insertion."
  },
  {
   "property": "C17",
   "status": "proved",
   "theorems": [
    "Verif.Bsl.Err.run_refines",
    "Verif.Bsl.Err.step_refines",
    "Verif.Bsl.Err.stuck_iff",
    "Verif.Bsl.Err.pushes_last20",
    "Verif.Bsl.Err.others_untouched",
    "Verif.Bsl.Err.hang_reachable"
   ],
   "note": "All interleavings of calls; the exact set of non-returning calls is ClearLastMark on a full stack without mark (finding F-ERR-1)."
  },
  {
   "property": "C18",
   "status": "proved",
   "theorems": [
    "Verif.Bsl.Time.dateTimeCheck_iff",
    "Verif.Bsl.Time.dateToUtc_exact",
    "Verif.Bsl.Time.dateTimeCompare_order",
    "Verif.Bsl.Time.compareByUs_order",
    "Verif.Bsl.Time.utcMax_exact",
    "Verif.Bsl.Time.utcToDate_exact",
    "Verif.Bsl.Time.addDaySecond_exact"
   ],
   "note": "gmtime_r of the C library is a parameter specified by Spec.IsGmtime (the calendar day and time of day of a second count); a function meeting it exists (exists_gmtime)."
  },
  {
   "property": "C19",
   "status": "proved",
   "theorems": [
    "Verif.Crypto.Drbg.output_allowed",
    "Verif.Crypto.Drbg.generateBytes_complete",
    "Verif.Crypto.Drbg.generate_succeeds",
    "Verif.Crypto.Drbg.pid_reuse"
   ],
   "note": "State machine of drbg.c with arbitrary failures, clock and forks; hypothesis that process ids do not come back along the line of forks is necessary (pid_reuse). The mechanism itself is not modelled."
  },
  {
   "property": "C20",
   "status": "proved",
   "theorems": [
    "Verif.Crypto.Health.rct_iff",
    "Verif.Crypto.Health.apt_iff",
    "Verif.Crypto.Health.reads_healthy",
    "Verif.Crypto.Health.timerCheck_iff",
    "Verif.Crypto.Health.osrCutoffs_ok"
   ],
   "note": "Streams shorter than 2^32 samples for the repetition count (uint32_t counter)."
  },
  {
   "property": "C21",
   "status": "proved",
   "theorems": [
    "Verif.Crypto.Bn.add_exact",
    "Verif.Crypto.Bn.sub_exact",
    "Verif.Crypto.Bn.inc_exact",
    "Verif.Crypto.Bn.dec_exact",
    "Verif.Crypto.Bn.mulAcc_exact",
    "Verif.Crypto.Bn.subMul_exact",
    "Verif.Crypto.Bn.mul_exact",
    "Verif.Crypto.Bn.sqr_exact",
    "Verif.Crypto.Bn.rshift_exact",
    "Verif.Crypto.Bn.lshift_exact",
    "Verif.Crypto.Bn.cmp_exact",
    "Verif.Crypto.Bn.zeroBits_exact",
    "Verif.Crypto.Bn.div_exact"
   ],
   "note": "Portable C version (noasm_bn_bincal.c, bn_bincal.c, macros of bn_bincal.h) at every word size; assembler versions not modelled."
  },
  {
   "property": "C22",
   "status": "proved",
   "theorems": [
    "Verif.Crypto.Bn.modExp_exact",
    "Verif.Crypto.Bn.montExp_exact",
    "Verif.Crypto.Bn.montMul_exact"
   ],
   "note": "BN_ModExp, BN_MontExp(Consttime), Montgomery multiplication; BN_MontExpMul is not modelled"
  },
  {
   "property": "C23",
   "status": "proved",
   "theorems": [
    "Verif.Crypto.Bn.modP224_exact",
    "Verif.Crypto.Bn.modP256_exact",
    "Verif.Crypto.Bn.modP384_exact",
    "Verif.Crypto.Bn.modP521_exact",
    "Verif.Crypto.Bn.modP521_needs_bound",
    "Verif.Crypto.Bn.modSm2_exact",
    "Verif.Crypto.Bn.nistMul_exact",
    "Verif.Crypto.Bn.nistSqr_exact",
    "Verif.Crypto.Bn.nistMul_refused",
    "Verif.Crypto.Bn.sm2Mul_exact",
    "Verif.Crypto.Bn.sm2Sqr_exact",
    "Verif.Crypto.Bn.addQuick_exact",
    "Verif.Crypto.Bn.subQuick_exact"
   ],
   "note": "64-bit words. The double-length product is BinMul/BinSqr (build without HITLS_CRYPTO_BN_COMBA). Words of an operand between its size and its room are taken to be zero. The assembly variants are not modelled."
  },
  {
   "property": "C24",
   "status": "proved",
   "theorems": [
    "Verif.Crypto.Modes.ctr_any_chunking",
    "Verif.Crypto.Modes.ctr_roundtrip",
    "Verif.Crypto.Modes.ctr_counters_distinct",
    "Verif.Crypto.Modes.stream_update_refuses"
   ],
   "note": "any block cipher; counter blocks are consecutive mod 2^128 and pairwise distinct within 2^128 blocks"
  },
  {
   "property": "C25",
   "status": "proved",
   "theorems": [
    "Verif.Crypto.Modes.ofb_any_chunking",
    "Verif.Crypto.Modes.ofb_roundtrip",
    "Verif.Crypto.Modes.cfb_any_chunking",
    "Verif.Crypto.Modes.cfb_roundtrip",
    "Verif.Crypto.Modes.cfb1_any_chunking",
    "Verif.Crypto.Modes.cfb1_roundtrip",
    "Verif.Crypto.Modes.block_encrypt_any_chunking",
    "Verif.Crypto.Modes.block_encrypt_nopad",
    "Verif.Crypto.Modes.block_roundtrip",
    "Verif.Crypto.Modes.xts_doubling",
    "Verif.Crypto.Modes.xts_roundtrip",
    "Verif.Crypto.Modes.xts_decrypt_spec",
    "Verif.Crypto.Modes.xts_short",
    "Verif.Crypto.Modes.xts_continues",
    "Verif.Crypto.Modes.xts_data_unit_limit",
    "Verif.Crypto.Modes.xts_key_check",
    "Verif.Crypto.Modes.xts_in_place_fails",
    "Verif.Crypto.Modes.xts_in_place_whole_blocks"
   ],
   "note": "separate input and output buffers; the in-place defect of XTS ciphertext stealing is proved as a negative theorem"
  },
  {
   "property": "C26",
   "status": "proved",
   "theorems": [
    "Verif.Crypto.Modes.block_encrypt_any_chunking",
    "Verif.Crypto.Modes.block_roundtrip",
    "Verif.Crypto.Modes.block_roundtrip_zeros",
    "Verif.Crypto.Modes.block_decrypt_accepts_only_padded",
    "Verif.Crypto.Modes.block_decrypt_total",
    "Verif.Crypto.Modes.block_decrypt_empty"
   ],
   "note": "ZEROS is not invertible by design; the empty ciphertext is accepted (block_decrypt_empty)"
  },
  {
   "property": "C27",
   "status": "proved",
   "theorems": [
    "Verif.Crypto.Gcm.table_ghash",
    "Verif.Crypto.Gcm.gcm_encrypt",
    "Verif.Crypto.Gcm.gcm_decrypt",
    "Verif.Crypto.Gcm.gcm_round_trip",
    "Verif.Crypto.Gcm.length_limit",
    "Verif.Crypto.Gcm.counter_blocks_distinct",
    "Verif.Crypto.Gcm.aad_once",
    "Verif.Crypto.Gcm.aad_empty",
    "Verif.Crypto.Gcm.tag_lengths",
    "Verif.Crypto.Gcm.final_needs_tag",
    "Verif.Crypto.Gcm.reinit_clears_tag",
    "Verif.Crypto.Gcm.init_keeps_old_tag",
    "Verif.Crypto.Gcm.use_count",
    "Verif.Crypto.Gcm.use_limit_wraps"
   ],
   "note": "Portable GCM code over an abstract 16-byte block cipher; table-driven GHASH equals the bitwise definition of SP 800-38D; any chunking."
  },
  {
   "property": "C28",
   "status": "proved",
   "theorems": [
    "Verif.Crypto.Md.sha256_stream",
    "Verif.Crypto.Md.sha512_stream",
    "Verif.Crypto.Md.stream1",
    "Verif.Crypto.Md.streamMd5",
    "Verif.Crypto.Md.streamSm3",
    "Verif.Crypto.Md.sha2_constants",
    "Verif.Crypto.Md.pad_whole",
    "Verif.Crypto.Md.refused_sticky",
    "Verif.Crypto.Md.refused_not_sticky_witness"
   ],
   "note": "SHA-2: streaming and block functions against FIPS 180-4; SHA-1, MD5, SM3: streaming and padding for any block function. Finding: MD5/SM3 keep no error flag after a refused update."
  },
  {
   "property": "C29",
   "status": "proved",
   "theorems": [
    "Verif.Crypto.Mac.hmac_session",
    "Verif.Crypto.Mac.hmac_sha256",
    "Verif.Crypto.Mac.hmac_sha512",
    "Verif.Crypto.Mac.hmac_sha1",
    "Verif.Crypto.Mac.hmac_md5",
    "Verif.Crypto.Mac.hmac_sm3",
    "Verif.Crypto.Mac.ofStream_lawful"
   ],
   "note": "HMAC and EAL MAC session state machine over any lawful hash object; instances for the SHA-2 family (full functions), SHA-1, MD5, SM3 (any block function). HMAC-SHA3 not instantiated."
  },
  {
   "property": "C30",
   "status": "proved",
   "theorems": [
    "Verif.Crypto.Kdf.hkdf_extract",
    "Verif.Crypto.Kdf.hkdf_expand",
    "Verif.Crypto.Kdf.hkdf_full",
    "Verif.Crypto.Kdf.pbkdf2_derive",
    "Verif.Crypto.Kdf.tls12_derive",
    "Verif.Crypto.Kdf.cut_length_prefix",
    "Verif.Crypto.Kdf.blocks_tag",
    "Verif.Crypto.Kdf.hmac_lawful",
    "Verif.Crypto.Kdf.hmac_sha256_lawful",
    "Verif.Crypto.Kdf.hmac_sha512_lawful"
   ],
   "note": "Over any MAC object obeying the law of C29; HMAC over every lawful hash obeys it (hmac_lawful)."
  },
  {
   "property": "C31",
   "status": "proved",
   "theorems": [
    "Verif.Crypto.Chacha.chacha20_stream",
    "Verif.Crypto.Chacha.chacha20_limit",
    "Verif.Crypto.Chacha.chacha20_involution",
    "Verif.Crypto.Chacha.poly1305_correct",
    "Verif.Crypto.Chacha.aead_encrypt",
    "Verif.Crypto.Chacha.aead_decrypt",
    "Verif.Crypto.Chacha.aead_round_trip",
    "Verif.Crypto.Chacha.aead_limit",
    "Verif.Crypto.Chacha.aead_aad_once",
    "Verif.Crypto.Chacha.getTag_len",
    "Verif.Crypto.Chacha.init_keeps_old_tag",
    "Verif.Crypto.Chacha.reinit_needs_tag"
   ],
   "note": "ChaCha20 block function, streaming and counter limit, Poly1305 limb arithmetic and streaming, AEAD sessions against an independent RFC 8439 specification; C code paths only, assembly not modelled."
  },
  {
   "property": "C32",
   "status": "proved",
   "theorems": [
    "Verif.Crypto.RsaPad.mgf1_spec",
    "Verif.Crypto.RsaPad.pss_sign",
    "Verif.Crypto.RsaPad.pss_verify",
    "Verif.Crypto.RsaPad.pss_roundtrip",
    "Verif.Crypto.RsaPad.pss_max_fails",
    "Verif.Crypto.RsaPad.iso_verify",
    "Verif.Crypto.RsaPad.iso_roundtrip",
    "Verif.Crypto.RsaPad.type1_sign",
    "Verif.Crypto.RsaPad.type1_verify",
    "Verif.Crypto.RsaPad.type1_unique",
    "Verif.Crypto.RsaPad.type1_recover",
    "Verif.Crypto.RsaPad.oaep_encrypt",
    "Verif.Crypto.RsaPad.oaep_decrypt",
    "Verif.Crypto.RsaPad.oaep_refuse",
    "Verif.Crypto.RsaPad.oaep_roundtrip",
    "Verif.Crypto.RsaPad.type2_encrypt",
    "Verif.Crypto.RsaPad.type2_encrypt_ok",
    "Verif.Crypto.RsaPad.type2_decrypt",
    "Verif.Crypto.RsaPad.type2_tls",
    "Verif.Crypto.RsaPad.type2_roundtrip"
   ],
   "note": "All five paddings and MGF1 over arbitrary hashes; verification accepts exactly the RFC 8017 encodings. Finding pss_max_fails: the maximal-salt parameter never works for moduli of 8n+1 bits."
  },
  {
   "property": "C33",
   "status": "proved",
   "theorems": [
    "Verif.Crypto.Mlkem.Props.barrett_correct",
    "Verif.Crypto.Mlkem.Props.barrett_drifts",
    "Verif.Crypto.Mlkem.Props.compress_correct",
    "Verif.Crypto.Mlkem.Props.decompress_correct",
    "Verif.Crypto.Mlkem.Props.compress_width",
    "Verif.Crypto.Mlkem.Props.compress_decompress",
    "Verif.Crypto.Mlkem.Props.decompress_compress",
    "Verif.Crypto.Mlkem.Props.encode_decode",
    "Verif.Crypto.Mlkem.Props.decode_fields",
    "Verif.Crypto.Mlkem.Props.decode12_accepts_iff",
    "Verif.Crypto.Mlkem.Props.ntt_correct",
    "Verif.Crypto.Mlkem.Props.intt_ntt",
    "Verif.Crypto.Mlkem.Props.cbd_correct",
    "Verif.Crypto.Mlkem.Props.matrix_correct"
   ],
   "note": "Portable C code; the assembler and SIMD back ends are not modelled."
  },
  {
   "property": "C34",
   "status": "proved",
   "theorems": [
    "Verif.Crypto.Mldsa.decompose_fips",
    "Verif.Crypto.Mldsa.batchDecompose_fips",
    "Verif.Crypto.Mldsa.power2Round_fips",
    "Verif.Crypto.Mldsa.power2Round_range",
    "Verif.Crypto.Mldsa.useHint_fips",
    "Verif.Crypto.Mldsa.hint_recovers",
    "Verif.Crypto.Mldsa.signer_hint",
    "Verif.Crypto.Mldsa.verifier_recovers_w1",
    "Verif.Crypto.Mldsa.norm_check",
    "Verif.Crypto.Mldsa.hint_decode_iff",
    "Verif.Crypto.Mldsa.hint_unique",
    "Verif.Crypto.Mldsa.hint_decode_in_bounds",
    "Verif.Crypto.Mldsa.hint_encode",
    "Verif.Crypto.Mldsa.layout_lengths",
    "Verif.Crypto.Mldsa.pubkey_roundtrip",
    "Verif.Crypto.Mldsa.pubkey_canonical",
    "Verif.Crypto.Mldsa.prvkey_roundtrip",
    "Verif.Crypto.Mldsa.prvkey_out_of_range_accepted",
    "Verif.Crypto.Mldsa.signature_roundtrip",
    "Verif.Crypto.Mldsa.signature_z_range"
   ],
   "note": "Rounding, hints, norm checks, bit packing and the key/signature layouts of all three parameter sets; the import of a secret key accepts coefficients outside [-eta, eta] (finding)."
  },
  {
   "property": "C35",
   "status": "proved",
   "theorems": [
    "Verif.Crypto.Xmss.no_index_reuse",
    "Verif.Crypto.Xmss.no_one_time_key_reuse",
    "Verif.Crypto.Xmss.signatures_carry_fresh_indices",
    "Verif.Crypto.Xmss.at_most_two_pow_h",
    "Verif.Crypto.Xmss.exhausted_key_never_signs",
    "Verif.Crypto.Xmss.failed_sign_releases_nothing",
    "Verif.Crypto.Xmss.successful_sign_advances",
    "Verif.Crypto.Xmss.sign_succeeds",
    "Verif.Crypto.Xmss.copy_cannot_sign",
    "Verif.Crypto.Xmss.failed_gen_cannot_sign",
    "Verif.Crypto.Xmss.generated_key_starts_at_zero",
    "Verif.Crypto.Xmss.imported_key_is_the_given_one",
    "Verif.Crypto.Xmss.export_free_import_safe",
    "Verif.Crypto.Xmss.import_can_roll_back"
   ],
   "note": "Over all histories of calls on any number of contexts with failures anywhere; discipline on key installation is stated and shown necessary by import_can_roll_back."
  },
  {
   "property": "C36",
   "status": "proved",
   "theorems": [
    "Verif.Crypto.Aes.tables_spec",
    "Verif.Crypto.Aes.aes_spec",
    "Verif.Crypto.Aes.setKey_rejects",
    "Verif.Crypto.Aes.roundtrip",
    "Verif.Crypto.Aes.builds_agree",
    "Verif.Crypto.Sm4.sbox_algebraic",
    "Verif.Crypto.Sm4.setKey_spec",
    "Verif.Crypto.Sm4.block_spec",
    "Verif.Crypto.Sm4.crypt_spec",
    "Verif.Crypto.Sm4.crypt_roundtrip",
    "Verif.Crypto.Sm4.crypt_rejects"
   ],
   "note": "AES S-box and T-table builds and SM4 refine FIPS 197 / GB/T 32907; assembly implementations not modelled"
  },
  {
   "property": "C37",
   "status": "proved",
   "theorems": [
    "Verif.Tls.RecRead.Props.read_exact",
    "Verif.Tls.RecRead.Props.delivers",
    "Verif.Tls.RecRead.Props.read_in_bounds",
    "Verif.Tls.RecRead.Props.interrupted_keeps",
    "Verif.Tls.RecRead.Props.stream_conserved",
    "Verif.Tls.RecRead.Props.only_accepted",
    "Verif.Tls.RecRead.Props.fragmentation",
    "Verif.Tls.RecRead.Props.no_read_ahead",
    "Verif.Tls.RecRead.Props.empty_bounded",
    "Verif.Tls.RecRead.Props.plaintext_accepted_iff"
   ],
   "note": "Stream protocols with TLS 1.3, TLCP and record size limit compiled in. Allocation failures, alerts and callbacks are not modelled; datagram reading is not covered here."
  },
  {
   "property": "C38",
   "status": "proved",
   "theorems": [
    "Verif.Tls.Order.client_order",
    "Verif.Tls.Order.server_order",
    "Verif.Tls.Order.finished_verified",
    "Verif.Tls.Order.client_authenticates_server",
    "Verif.Tls.Order.server_authenticates_client",
    "Verif.Tls.Order.ccs_then_finished",
    "Verif.Tls.Order.ccs_once",
    "Verif.Tls.Order.finished_under_new_keys",
    "Verif.Tls.Order.keys_not_early",
    "Verif.Tls.Order.ccs_before_serverHello_witness",
    "Verif.Tls.Order.retry_then_tls12_witness",
    "Verif.Tls.Order.no_client_certificate_witness"
   ],
   "note": "Handshake state machine over streams, both roles, TLS 1.2, TLCP and TLS 1.3, initial handshake. DTLS, renegotiation and post-handshake messages are not modelled. The witnesses show the exact boundaries."
  },
  {
   "property": "C39",
   "status": "proved",
   "theorems": [
    "Verif.Pki.Host.single_match_iff",
    "Verif.Pki.Host.partial_match_iff",
    "Verif.Pki.Host.partial_match_exact",
    "Verif.Pki.Host.empty_label_matches_any_label",
    "Verif.Pki.Host.wildcard_matches_empty_label",
    "Verif.Pki.Host.match_same_number_of_labels",
    "Verif.Pki.Host.verify_hostname_iff",
    "Verif.Pki.Host.verify_hostname_length",
    "Verif.Pki.Host.nul_names_ignored",
    "Verif.Pki.Host.verify_uri_iff",
    "Verif.Pki.Host.verify_srv_iff",
    "Verif.Pki.Host.verify_ip_iff",
    "Verif.Pki.Host.verify_ip_length",
    "Verif.Pki.Host.verify_identity_dispatch"
   ],
   "note": "Matchers, SAN/CN selection, IP, URI and SRV identities. Findings: with the partial flag an empty pattern label is not compared."
  },
  {
   "property": "C40",
   "status": "proved",
   "theorems": [
    "Verif.Pki.Path.path_anchored",
    "Verif.Pki.Path.path_linked",
    "Verif.Pki.Path.path_finite",
    "Verif.Pki.Path.depth_bounded",
    "Verif.Pki.Path.accepts_iff",
    "Verif.Pki.Path.accepted_conforms",
    "Verif.Pki.Path.path_signed",
    "Verif.Pki.Path.anchor_self_signed",
    "Verif.Pki.Path.path_in_validity",
    "Verif.Pki.Path.issuers_are_cas",
    "Verif.Pki.Path.path_length_respected",
    "Verif.Pki.Path.no_unknown_critical",
    "Verif.Pki.Path.purpose_respected",
    "Verif.Pki.Path.not_revoked",
    "Verif.Pki.Path.security_level",
    "Verif.Pki.Path.unambiguous_path_accepted",
    "Verif.Pki.Path.Ex.accepted",
    "Verif.Pki.Path.Ex.no_backtracking",
    "Verif.Pki.Path.Ex.v1_anchor_accepted",
    "Verif.Pki.Path.Ex.single_cert_needs_depth_two",
    "Verif.Pki.Path.Ex.callback_can_overrule"
   ],
   "note": "Full model of HITLS_X509_CertVerify with trust-store search, greedy path building, callback, extension, purpose, time, lite-CRL and signature checks; decision theorem against a separate RFC 5280-style specification, plus completeness for unambiguous paths. Parsing, primitive cryptography, the non-lite CRL engine and the host check are parameters."
  },
  {
   "property": "C41",
   "status": "proved",
   "theorems": [
    "Verif.Tls.Session.Props.encode_iff",
    "Verif.Tls.Session.Props.size_exact",
    "Verif.Tls.Session.Props.decode_iff",
    "Verif.Tls.Session.Props.decode_in_bounds",
    "Verif.Tls.Session.Props.roundtrip",
    "Verif.Tls.Session.Props.long_host_lost",
    "Verif.Tls.Session.Props.minimal_accepted"
   ],
   "note": "Little-endian host; certificate parser is a parameter; allocation failure not modelled."
  },
  {
   "property": "C42",
   "status": "proved",
   "theorems": [
    "Verif.Bsl.Bytes.ctIsZero_spec",
    "Verif.Bsl.Bytes.ctEqual_spec",
    "Verif.Bsl.Bytes.ctLt_spec",
    "Verif.Bsl.Bytes.ctGe_spec",
    "Verif.Bsl.Bytes.ctGt_spec",
    "Verif.Bsl.Bytes.ctLe_spec",
    "Verif.Bsl.Bytes.ctSelect_spec",
    "Verif.Bsl.Bytes.ctSelect8_spec",
    "Verif.Bsl.Bytes.ctMemcmp_spec"
   ],
   "note": "exact mask semantics of every primitive"
  },
  {
   "property": "C43",
   "status": "proved",
   "theorems": [],
   "note": "exact grammar of accepted texts and value, all strings and capacities"
  },
  {
   "property": "C44",
   "status": "proved",
   "theorems": [
    "Verif.Bsl.UioMem.run_refines",
    "Verif.Bsl.UioMem.fifo"
   ],
   "note": "every history of write, read, gets, pending, info, reset, external buffer and eof calls, every allocator behaviour"
  },
  {
   "property": "C45",
   "status": "proved",
   "theorems": [
    "Verif.Bsl.Pem.Props.search_correct",
    "Verif.Bsl.Pem.Props.isPem_correct",
    "Verif.Bsl.Pem.Props.decode_correct",
    "Verif.Bsl.Pem.Props.encode_correct",
    "Verif.Bsl.Pem.Props.lines_correct",
    "Verif.Bsl.Pem.Props.table_correct",
    "Verif.Bsl.Pem.Props.roundtrip",
    "Verif.Bsl.Pem.Props.type_correct",
    "Verif.Bsl.Pem.Props.type_of_encoded",
    "Verif.Bsl.Pem.Props.type_by_table_order",
    "Verif.Bsl.Pem.Props.bundle_correct",
    "Verif.Bsl.Pem.Props.bundle_truncates",
    "Verif.Bsl.Pem.Props.bundle_bad_object",
    "Verif.Bsl.Pem.Props.bundle_nonempty"
   ],
   "note": "Base64 is the model of C18's module. Findings: silent truncation of bundles; detection by table order."
  },
  {
   "property": "C46",
   "status": "proved",
   "theorems": [
    "Verif.Crypto.Wrap.wrap_rfc3394",
    "Verif.Crypto.Wrap.wrap_rejects",
    "Verif.Crypto.Wrap.unwrap_exact",
    "Verif.Crypto.Wrap.unwrap_wrap",
    "Verif.Crypto.Wrap.largest_not_unwrappable",
    "Verif.Crypto.Wrap.wrap_rfc5649",
    "Verif.Crypto.Wrap.unwrap_pad_exact",
    "Verif.Crypto.Wrap.unwrap_wrap_pad",
    "Verif.Crypto.Wrap.unwrap_rejects_length",
    "Verif.Crypto.Wrap.small_buffer",
    "Verif.Crypto.Wrap.no_overrun",
    "Verif.Crypto.Wrap.iv_rules"
   ],
   "note": "Over an abstract block permutation (C36 instantiates it)."
  },
  {
   "property": "C47",
   "status": "proved",
   "theorems": [
    "Verif.Bsl.Oid.Props.toText_correct",
    "Verif.Bsl.Oid.Props.fromText_correct",
    "Verif.Bsl.Oid.Props.no_oob",
    "Verif.Bsl.Oid.Props.digits_correct",
    "Verif.Bsl.Oid.Props.octets_roundtrip",
    "Verif.Bsl.Oid.Props.text_roundtrip",
    "Verif.Bsl.Oid.Props.text_limit",
    "Verif.Bsl.Oid.Props.index_correct",
    "Verif.Bsl.Oid.Props.table_correct",
    "Verif.Bsl.Oid.Props.getOid_correct",
    "Verif.Bsl.Oid.Props.builtin_inverse",
    "Verif.Bsl.Oid.Props.getCid_correct",
    "Verif.Bsl.Oid.Props.register_permanent",
    "Verif.Bsl.Oid.Props.register_again",
    "Verif.Bsl.Oid.Props.name_correct"
   ],
   "note": "snprintf is modelled by decimal digits; the hash table by a list in an arbitrary iteration order; locking and allocation failure are not modelled."
  },
  {
   "property": "C48",
   "status": "proved",
   "theorems": [
    "Verif.Tls.Version.config_inv",
    "Verif.Tls.Version.setVersion_exact",
    "Verif.Tls.Version.forbid_exact",
    "Verif.Tls.Version.setVersion_history",
    "Verif.Tls.Version.server_highest",
    "Verif.Tls.Version.renegotiation_keeps",
    "Verif.Tls.Version.marker",
    "Verif.Tls.Version.client_accepts",
    "Verif.Tls.Version.client_accepts_old",
    "Verif.Tls.Version.client_enabled",
    "Verif.Tls.Version.client_accepts_13_in_legacy_field",
    "Verif.Tls.Version.downgrade_protection",
    "Verif.Tls.Version.honest_agree"
   ],
   "note": "Model Verif/Tls/Version/Model.lean. QUIC mode excluded by hypothesis in the server/client theorems. Deviations proved: client_accepts_13_in_legacy_field, setVersion_history."
  },
  {
   "property": "C49",
   "status": "proved",
   "theorems": [
    "Verif.Bsl.Bytes.load_store16",
    "Verif.Bsl.Bytes.load_store24",
    "Verif.Bsl.Bytes.load_store32",
    "Verif.Bsl.Bytes.load_store48",
    "Verif.Bsl.Bytes.load_store64",
    "Verif.Bsl.Bytes.uint16ToByte_spec",
    "Verif.Bsl.Bytes.uint24ToByte_spec",
    "Verif.Bsl.Bytes.uint32ToByte_spec",
    "Verif.Bsl.Bytes.uint48ToByte_spec",
    "Verif.Bsl.Bytes.uint64ToByte_spec"
   ],
   "note": "round trip and network order"
  },
  {
   "property": "C50",
   "status": "proved",
   "theorems": [
    "Verif.Tls.Inner.parse_iff",
    "Verif.Tls.Inner.parse_build",
    "Verif.Tls.Inner.build_ok_iff",
    "Verif.Tls.Inner.dtls13_min_ciphertext",
    "Verif.Tls.Inner.parse_inj"
   ],
   "note": "full"
  },
  {
   "property": "C51",
   "status": "partial",
   "theorems": [
    "Verif.Tls.RecWrite.dtls_seq_increasing_partial",
    "Verif.Tls.RecWrite.dtls_nonce_reuse_after_deref_failure",
    "Verif.Tls.RecWrite.dtls_sealed_twice_after_busy"
   ],
   "note": "The code violates the full statement: if RecDerefBufList fails (allocation) after a datagram was sent, the number is not advanced and is reused for the next record (witness proved). Proved under the assumption that this call succeeds."
  },
  {
   "property": "C52",
   "status": "partial",
   "theorems": [
    "Verif.Bsl.Time.addUs_exact_partial",
    "Verif.Bsl.Time.addUs_wraps"
   ],
   "note": "Exact while us plus the microsecond field stays below 2^32. addUs_wraps proves the code violates the full property: the uint32_t sum wraps and the result is an earlier date."
  },
  {
   "property": "C53",
   "status": "proved",
   "theorems": [
    "Verif.Bsl.Asn1.parseTime_iff",
    "Verif.Bsl.Asn1.parseTime_in_bounds",
    "Verif.Bsl.Asn1.encodeTimeContent_iff",
    "Verif.Bsl.Asn1.parseTime_encodeTime",
    "Verif.Bsl.Asn1.utcTime_before_1970_refused",
    "Verif.Bsl.Asn1.utcTime_not_reencodable"
   ],
   "note": "Boundary stated exactly: UTCTime years 1950-1969 are refused and 1970-1999 cannot be re-encoded as UTCTime (finding F-ASN1-4)."
  },
  {
   "property": "C54",
   "status": "proved",
   "theorems": [
    "Verif.Bsl.Asn1.parseBool_iff",
    "Verif.Bsl.Asn1.parseBool_encodeBool",
    "Verif.Bsl.Asn1.parseBitString_iff",
    "Verif.Bsl.Asn1.parseBitString_encode",
    "Verif.Bsl.Asn1.clearUnused_bits",
    "Verif.Bsl.Asn1.parseBitString_encode_empty",
    "Verif.Bsl.Asn1.parseBmp_encodeBmp",
    "Verif.Bsl.Asn1.parseBmp_drops_high"
   ],
   "note": "parseBmp_drops_high: parsing drops the high octet of BMP characters (finding F-ASN1-5)."
  },
  {
   "property": "C55",
   "status": "proved",
   "theorems": [
    "Verif.Bsl.Asn1.listInternal_iff",
    "Verif.Bsl.Asn1.listInternal_in_bounds",
    "Verif.Bsl.Asn1.decodeTwoLayer_iff",
    "Verif.Bsl.Asn1.decodeTwoLayer_in_bounds"
   ],
   "note": "The callback with its list is an arbitrary state transformer."
  },
  {
   "property": "C56",
   "status": "proved",
   "theorems": [
    "Verif.Crypto.Bn.bn_cmp",
    "Verif.Crypto.Bn.bn_canonical",
    "Verif.Crypto.Bn.bn_add",
    "Verif.Crypto.Bn.bn_sub",
    "Verif.Crypto.Bn.bn_mul",
    "Verif.Crypto.Bn.bn_sqr",
    "Verif.Crypto.Bn.bn_addLimb",
    "Verif.Crypto.Bn.bn_subLimb",
    "Verif.Crypto.Bn.bn_mulLimb",
    "Verif.Crypto.Bn.bn_div",
    "Verif.Crypto.Bn.bn_mod",
    "Verif.Crypto.Bn.bn_divLimb",
    "Verif.Crypto.Bn.bn_modLimb",
    "Verif.Crypto.Bn.bn_rshift",
    "Verif.Crypto.Bn.bn_lshift",
    "Verif.Crypto.Bn.bn_bits",
    "Verif.Crypto.Bn.bn_getBit",
    "Verif.Crypto.Bn.subLimb_keeps_old_sign",
    "Verif.Crypto.Bn.subLimb_negative_zero",
    "Verif.Crypto.Bn.modLimb_returns_modulus"
   ],
   "note": "all signed operations; two departures from the integers are proved with witnesses"
  },
  {
   "property": "C57",
   "status": "proved",
   "theorems": [
    "Verif.Crypto.Bn.unrolled_mul_exact",
    "Verif.Crypto.Bn.unrolled_sqr_exact",
    "Verif.Crypto.Bn.conquer_mul_exact",
    "Verif.Crypto.Bn.conquer_sqr_exact",
    "Verif.Crypto.Bn.conquer_small_no_space",
    "Verif.Crypto.Bn.conquer_odd_needs_space",
    "Verif.Crypto.Bn.conquer_same_words",
    "Verif.Crypto.Bn.bn_mul_comba",
    "Verif.Crypto.Bn.bn_sqr_comba"
   ],
   "note": "Every size and every word width 2h with h at least 2. Allocation failures are not modelled."
  },
  {
   "property": "C58",
   "status": "proved",
   "theorems": [
    "Verif.Crypto.Bn.gcd_exact",
    "Verif.Crypto.Bn.modInv_exact",
    "Verif.Crypto.Bn.modInv_one",
    "Verif.Crypto.Bn.lcm_exact",
    "Verif.Crypto.Bn.lcm_alias_wrong"
   ],
   "note": "BN_Gcd, BN_ModInv, BN_Lcm"
  },
  {
   "property": "C59",
   "status": "proved",
   "theorems": [
    "Verif.Bsl.Ip.parse_ip_iff",
    "Verif.Bsl.Ip.parse_ip_length",
    "Verif.Bsl.Ip.ipv4_one_spelling",
    "Verif.Bsl.Ip.ipv6_text_accepted"
   ],
   "note": "Exact acceptance and value of SAL_ParseIp."
  },
  {
   "property": "C60",
   "status": "proved",
   "theorems": [
    "Verif.Crypto.Hbs.xmss_signature_verifies",
    "Verif.Crypto.Hbs.xmss_signing_fails_only_with_a_hash",
    "Verif.Crypto.Hbs.xmss_root_is_the_standard_root",
    "Verif.Crypto.Hbs.slh_signature_verifies",
    "Verif.Crypto.Hbs.slh_signing_fails_only_with_a_hash",
    "Verif.Crypto.Hbs.slh_root_is_the_standard_root",
    "Verif.Crypto.Hbs.slh_digest_is_used_exactly",
    "Verif.Crypto.Hbs.slh_positions",
    "Verif.Crypto.Hbs.message_representative_is_injective",
    "Verif.Crypto.Hbs.fors_signature_gives_the_public_key",
    "Verif.Crypto.Hbs.fors_digits",
    "Verif.Crypto.Hbs.hypertree_signature_verifies",
    "Verif.Crypto.Hbs.tree_signature_gives_the_root",
    "Verif.Crypto.Hbs.tree_signature_contents",
    "Verif.Crypto.Hbs.root_is_the_standard_root",
    "Verif.Crypto.Hbs.wots_signature_gives_the_public_key",
    "Verif.Crypto.Hbs.wots_digits",
    "Verif.Crypto.Hbs.wots_signature_cannot_be_advanced"
   ],
   "note": "The hash functions are arbitrary deterministic functions that return n bytes or fail. The optimised SLH-DSA chain functions and the BDS traversal of XMSS are not modelled: the generic chain loop and the tree computation are."
  },
  {
   "property": "C61",
   "status": "proved",
   "theorems": [
    "Verif.Crypto.Mlkem.Props.keyGen_correct",
    "Verif.Crypto.Mlkem.Props.encrypt_correct",
    "Verif.Crypto.Mlkem.Props.decrypt_correct",
    "Verif.Crypto.Mlkem.Props.decaps_correct",
    "Verif.Crypto.Mlkem.Props.import_correct",
    "Verif.Crypto.Mlkem.Props.encaps_decaps",
    "Verif.Crypto.Mlkem.Props.cipher_lengths",
    "Verif.Crypto.Mlkem.Props.samples_correct",
    "Verif.Crypto.Mlkem.Props.parameters",
    "Verif.Crypto.Mlkem.Props.encaps_correct"
   ],
   "note": "Hash functions are arbitrary functions; the probability that the noise condition fails is outside the model."
  },
  {
   "property": "C62",
   "status": "proved",
   "theorems": [
    "Verif.Crypto.Mldsa.sign_then_verify",
    "Verif.Crypto.Mldsa.verify_decision",
    "Verif.Crypto.Mldsa.keyGen_fips",
    "Verif.Crypto.Mldsa.sign_fips",
    "Verif.Crypto.Mldsa.ring_product",
    "Verif.Crypto.Mldsa.ntt_fips",
    "Verif.Crypto.Mldsa.challenge_product",
    "Verif.Crypto.Mldsa.rejNtt_fips",
    "Verif.Crypto.Mldsa.rejBounded_fips",
    "Verif.Crypto.Mldsa.sampleInBall_fips",
    "Verif.Crypto.Mldsa.encode_separates",
    "Verif.Crypto.Mldsa.encode_mu",
    "Verif.Crypto.Mldsa.demo_run"
   ],
   "note": "The hash functions are arbitrary byte streams (their block-wise squeezing is covered elsewhere); the samplers and the signing loop take a step limit and all statements hold for every limit. The counter theorem needs the counter below 2^16, the two bytes it is hashed with. The paired sampling variants for assembly and allocation or hash failures are not modelled."
  },
  {
   "property": "C63",
   "status": "proved",
   "theorems": [
    "Verif.Crypto.Ecc.double_exact",
    "Verif.Crypto.Ecc.multDouble_exact",
    "Verif.Crypto.Ecc.add_exact",
    "Verif.Crypto.Ecc.addAffine_exact",
    "Verif.Crypto.Ecc.toAffine_exact",
    "Verif.Crypto.Ecc.cmp_exact",
    "Verif.Crypto.Ecc.onCurve_exact",
    "Verif.Crypto.Ecc.mul_exact",
    "Verif.Crypto.Ecc.mul_refused",
    "Verif.Crypto.Ecc.mulFast_exact",
    "Verif.Crypto.Ecc.mulAdd_exact",
    "Verif.Crypto.Ecc.noSmallOrder_of_prime",
    "Verif.Crypto.Ecc.mulFast_small_order",
    "Verif.Crypto.Ecc.recode_exact",
    "Verif.Crypto.Ecc.nist_mul_affine",
    "Verif.Crypto.Ecc.nist_mulAdd_affine",
    "Verif.Crypto.Ecc.sm2_mulAdd_affine",
    "Verif.Crypto.Ecc.p224_prime",
    "Verif.Crypto.Ecc.p521_prime",
    "Verif.Crypto.Ecc.g224_order"
   ],
   "note": "Generic method (EC_METHOD_NIST, EC_METHOD_SM2_NIST); primality of the modulus as hypothesis, proved for P-224 and P-521."
  },
  {
   "property": "C64",
   "status": "proved",
   "theorems": [
    "Verif.Crypto.Bn.bin2Bn_exact",
    "Verif.Crypto.Bn.bn2BinFix_exact",
    "Verif.Crypto.Bn.bn2Bin_exact",
    "Verif.Crypto.Bn.bin_round_trip",
    "Verif.Crypto.Bn.hex2Bn_exact",
    "Verif.Crypto.Bn.dec2Bn_exact",
    "Verif.Crypto.Bn.bn2Hex_exact",
    "Verif.Crypto.Bn.bn2Dec_exact",
    "Verif.Crypto.Bn.text_round_trip"
   ],
   "note": "Exact value, exact acceptance, canonical output, no overrun, round trips."
  },
  {
   "property": "C65",
   "status": "proved",
   "theorems": [
    "Verif.Crypto.Sig.getBn_exact",
    "Verif.Crypto.Sig.getBn_wrap",
    "Verif.Crypto.Sig.ecdsaVerify_exact",
    "Verif.Crypto.Sig.sm2Verify_exact",
    "Verif.Crypto.Sig.ecdsaSign_exact",
    "Verif.Crypto.Sig.sm2Sign_exact",
    "Verif.Crypto.Sig.sm2Sign_last",
    "Verif.Crypto.Sig.ecdsa_sign_verifies",
    "Verif.Crypto.Sig.sm2_sign_verifies"
   ],
   "note": "For groups of prime order with right field routines (instance: P-256 with the NIST routines, primality and order proved). Messages of 2^29 bytes or more are outside; getBn_wrap shows what happens there."
  },
  {
   "property": "C66",
   "status": "proved",
   "theorems": [
    "Verif.Crypto.Sig.ecdhShare_exact",
    "Verif.Crypto.Sig.ecdh_agree"
   ],
   "note": "Cofactor one."
  },
  {
   "property": "C67",
   "status": "proved",
   "theorems": [
    "Verif.Crypto.Bn.montExpMul_exact"
   ],
   "note": "exact value, including the zero base with exponent zero; every refusal"
  },
  {
   "property": "C68",
   "status": "proved",
   "theorems": [
    "Verif.Crypto.Dsa.dsaBits_exact",
    "Verif.Crypto.Dsa.dsaBits_standard",
    "Verif.Crypto.Dsa.dsaBits_wrong",
    "Verif.Crypto.Dsa.dsaSign_exact",
    "Verif.Crypto.Dsa.dsaVerify_exact",
    "Verif.Crypto.Dsa.dsaVerify_bad_key",
    "Verif.Crypto.Dsa.dsa_sign_verifies"
   ],
   "note": "the standard's number only for orders of whole bytes; dsaBits_wrong shows the deviation otherwise"
  },
  {
   "property": "C69",
   "status": "proved",
   "theorems": [
    "Verif.Crypto.SigDer.decodeSign_exact",
    "Verif.Crypto.SigDer.der_unique",
    "Verif.Crypto.SigDer.encodeSign_der",
    "Verif.Crypto.SigDer.encodeSign_positive",
    "Verif.Crypto.SigDer.decode_encode",
    "Verif.Crypto.SigDer.signLen_enough",
    "Verif.Crypto.SigDer.decodeSign_not_unique"
   ],
   "note": "decodeSign_not_unique: lengths need not be the shortest, so a signature has several accepted encodings"
  },
  {
   "property": "C70",
   "status": "proved",
   "theorems": [
    "Verif.Crypto.Rsa.pubEnc_exact",
    "Verif.Crypto.Rsa.prvRun_exact",
    "Verif.Crypto.Rsa.prvRun_total",
    "Verif.Crypto.Rsa.decrypt_encrypt",
    "Verif.Crypto.Rsa.verify_sign",
    "Verif.Crypto.Rsa.blind_stuck",
    "Verif.Crypto.Rsa.no_exponent",
    "Verif.Crypto.Rsa.qInv_overflow"
   ],
   "note": "the primitives with blinding; the paddings are C32"
  },
  {
   "property": "C71",
   "status": "proved",
   "theorems": [
    "Verif.Crypto.Rsa.setPrv_nd",
    "Verif.Crypto.Rsa.setPrv_primes",
    "Verif.Crypto.Rsa.setPrv_full",
    "Verif.Crypto.Rsa.setPrv_shape",
    "Verif.Crypto.Rsa.setPrv_rfc",
    "Verif.Crypto.Rsa.setPub_exact",
    "Verif.Crypto.Rsa.genKey_exact",
    "Verif.Crypto.Rsa.gen_roundtrip",
    "Verif.Crypto.Rsa.setPrv_unrelated"
   ],
   "note": "the search for the primes is not modelled: generation starts from two primes"
  },
  {
   "property": "C72",
   "status": "proved",
   "theorems": [
    "Verif.Crypto.Dh.setPara_exact",
    "Verif.Crypto.Dh.setPrv_exact",
    "Verif.Crypto.Dh.share_exact",
    "Verif.Crypto.Dh.share_agrees",
    "Verif.Crypto.Dh.gen_exact",
    "Verif.Crypto.Dh.gen_range",
    "Verif.Crypto.Dh.pub_exact",
    "Verif.Crypto.Dh.generator_unchecked"
   ],
   "note": "Primality of the modulus and the order of the generator are not checked by the code: generator_unchecked is a witness of parameters that are accepted although every key made from them is refused."
  },
  {
   "property": "C73",
   "status": "proved",
   "theorems": [
    "Verif.Crypto.Rsa.setBssa_exact",
    "Verif.Crypto.Rsa.blind_exact",
    "Verif.Crypto.Rsa.clean_ready",
    "Verif.Crypto.Rsa.unblind_exact",
    "Verif.Crypto.Rsa.bssa_correct",
    "Verif.Crypto.Rsa.blindSign_exact",
    "Verif.Crypto.Rsa.blind_linkable",
    "Verif.Crypto.Rsa.setBssa_spoils"
   ],
   "note": "blind_linkable and setBssa_spoils state the two ways in which the code does not do what RFC 9474 asks; the EMSA-PSS encoding is an input."
  },
  {
   "property": "C74",
   "status": "proved",
   "theorems": [
    "Verif.Crypto.Paillier.gen_exact",
    "Verif.Crypto.Paillier.setPub_exact",
    "Verif.Crypto.Paillier.setPrv_exact",
    "Verif.Crypto.Paillier.enc_exact",
    "Verif.Crypto.Paillier.enc_sound",
    "Verif.Crypto.Paillier.add_exact",
    "Verif.Crypto.Paillier.add_correct",
    "Verif.Crypto.Paillier.dec_exact",
    "Verif.Crypto.Paillier.dec_correct",
    "Verif.Crypto.Paillier.dec_refuses_length",
    "Verif.Crypto.Paillier.gen_refuses_own",
    "Verif.Crypto.Paillier.base_unchecked",
    "Verif.Crypto.Paillier.bits_exact"
   ],
   "note": "Stated with the exact lengths the code asks for; the primes and the random numbers are inputs."
  },
  {
   "property": "C75",
   "status": "proved",
   "theorems": [
    "Verif.Crypto.Elgamal.gen_exact",
    "Verif.Crypto.Elgamal.gen_some",
    "Verif.Crypto.Elgamal.enc_exact",
    "Verif.Crypto.Elgamal.enc_refuses",
    "Verif.Crypto.Elgamal.enc_even",
    "Verif.Crypto.Elgamal.dec_exact",
    "Verif.Crypto.Elgamal.dec_refuses",
    "Verif.Crypto.Elgamal.dec_correct",
    "Verif.Crypto.Elgamal.bits_exact",
    "Verif.Crypto.Elgamal.gen_even_useless",
    "Verif.Crypto.Elgamal.enc_wraps"
   ],
   "note": "Generation from the drawn numbers, encryption and decryption on the modelled numbers. Findings elgamal-modulus, elgamal-message."
  },
  {
   "property": "C76",
   "status": "proved",
   "theorems": [
    "Verif.Crypto.Cmac.cmac_exact",
    "Verif.Crypto.Cmac.cmac_unique",
    "Verif.Crypto.Cmac.cbcMac_exact",
    "Verif.Crypto.Cmac.final_refuses",
    "Verif.Crypto.Cmac.cbcMac_collision"
   ],
   "note": "For an arbitrary block function; failing block operations are not modelled. Finding cbcmac-zeros."
  },
  {
   "property": "C77",
   "status": "proved",
   "theorems": [
    "Verif.Crypto.Siphash.init_exact",
    "Verif.Crypto.Siphash.sip_exact",
    "Verif.Crypto.Siphash.sip_unique",
    "Verif.Crypto.Siphash.refuses"
   ],
   "note": "Against the definition in the paper; the model computes the test vector of its appendix."
  },
  {
   "property": "C78",
   "status": "proved",
   "theorems": [
    "Verif.Crypto.Scrypt.scrypt_exact",
    "Verif.Crypto.Scrypt.scrypt_pbkdf2",
    "Verif.Crypto.Scrypt.scrypt_sha256",
    "Verif.Crypto.Scrypt.checkParam_exact",
    "Verif.Crypto.Scrypt.sumLen_exact",
    "Verif.Crypto.Scrypt.roMix_exact",
    "Verif.Crypto.Scrypt.index_exact",
    "Verif.Crypto.Scrypt.blockMix_exact",
    "Verif.Crypto.Scrypt.salsa_exact"
   ],
   "note": "Allocation succeeds; context handling (SetParam, Dup) is not modelled"
  },
  {
   "property": "C79",
   "status": "proved",
   "theorems": [
    "Verif.Auth.Otp.gen_exact",
    "Verif.Auth.Otp.hotp_validate",
    "Verif.Auth.Otp.totp_validate",
    "Verif.Auth.Otp.totp_drift",
    "Verif.Auth.Otp.totp_wraps",
    "Verif.Auth.Otp.after_inv",
    "Verif.Auth.Otp.set_exact",
    "Verif.Auth.Otp.after_totp",
    "Verif.Auth.Otp.isText_unique"
   ],
   "note": "totp_validate assumes that the window does not reach below step 0; totp_wraps shows what happens there (finding totp-wrap)"
  }
 ]
}