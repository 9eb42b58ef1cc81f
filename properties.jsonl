{"id": "C01", "title": "SM3 digest conforms to GB/T 32905", "statement": "sm3.Sum(m), and New/Write/Sum, return exactly the 32-byte digest that GB/T 32905-2016 defines for m (padding, message expansion, compression, big-endian output), for every message shorter than 2^61 bytes.", "quantifier": "all byte strings m with len(m) < 2^61", "why_tests_cant": "Test vectors fix a handful of messages; padding boundaries and every word value of the compression function are an unbounded domain.", "anchors": [{"file": "sm3/sm3.go", "symbols": ["Sum", "New", "digest.Write", "digest.Sum", "digest.checkSum", "block", "p1"]}]}
{"id": "C02", "title": "SM3 is independent of how the input is chunked", "statement": "Writing m to a hash in any number of Write calls of any sizes (including empty ones) gives the digest of the concatenation, equal to sm3.Sum of it.", "quantifier": "all finite sequences of Write arguments", "why_tests_cant": "The number of ways of splitting a message is exponential in its length.", "anchors": [{"file": "sm3/sm3.go", "symbols": ["digest.Write", "digest.Sum", "Sum"]}]}
{"id": "C03", "title": "Sum does not disturb the running hash; any history behaves as an append log", "statement": "For any sequence of Write / Sum / Reset calls, each Sum(in) returns in ++ SM3(everything written since the last Reset), and later calls are unaffected by Sum.", "quantifier": "all histories of Write, Sum, Reset operations and all Sum prefixes", "why_tests_cant": "Histories are unbounded.", "anchors": [{"file": "sm3/sm3.go", "symbols": ["digest.Sum", "digest.Write", "digest.Reset"]}]}
{"id": "C04", "title": "SM3 never panics and reports full writes", "statement": "No sequence of Write/Sum/Reset calls reaches the internal panic of checkSum; Write(p) always returns (len(p), nil) and the digest part is always 32 bytes.", "quantifier": "all histories, all total lengths (including lengths whose bit count wraps)", "why_tests_cant": "Reachability of a panic over all histories.", "anchors": [{"file": "sm3/sm3.go", "symbols": ["digest.checkSum", "digest.Write"]}]}
{"id": "C05", "title": "SM3 length field wraps at 2^61 bytes", "statement": "The digest depends on the total length only through its value modulo 2^61 in the padding: the length field of the digest is the low 64 bits of the bit count, so for messages of 2^61 bytes or more the result still is the digest of GB/T padding with the bit length reduced modulo 2^64.", "quantifier": "all messages, without a length bound", "why_tests_cant": "No test can hash 2^61 bytes.", "anchors": [{"file": "sm3/sm3.go", "symbols": ["digest.checkSum"]}]}
{"id": "C06", "title": "SM2 digest signatures verify", "statement": "For every private key D in [1,N-2] with its public key, every digest and every random stream, if SignDigestRS returns (r,s) then VerifyDigestRS accepts (r,s) for that digest and public key.", "quantifier": "all keys D, digests, random streams", "why_tests_cant": "Universally quantified over a 256-bit key, 256-bit nonce and all digests.", "anchors": [{"file": "sm2/sm2.go", "symbols": ["SignDigestRS", "VerifyDigestRS", "nextk"]}]}
{"id": "C07", "title": "SM2 message signatures verify end to end", "statement": "For every key, message, user id and random stream, a signature returned by Sign (DER) is accepted by Verify with the same message and user id, and SignRS output by VerifyRS; likewise SignDigest/VerifyDigest.", "quantifier": "all keys, messages, user ids, random streams", "why_tests_cant": "Same domain as C06 plus every message and uid, and the DER encoding of every (r,s).", "anchors": [{"file": "sm2/sm2.go", "symbols": ["Sign", "SignRS", "Verify", "VerifyRS", "SignDigest", "VerifyDigest", "MarshalSign", "UnmarshalSign"]}]}
{"id": "C08", "title": "SM2 verification rejects out-of-range signatures", "statement": "Verify*, for every public key and message, returns false when r or s is < 1 or >= N, or when r+s is 0 mod N; no negative, zero or non-reduced (malleated by +N) component is ever accepted.", "quantifier": "all integers r,s (any sign and size), all keys, messages", "why_tests_cant": "Integers are unbounded.", "anchors": [{"file": "sm2/sm2.go", "symbols": ["VerifyRS", "VerifyDigestRS"]}]}
{"id": "C09", "title": "SM2 verification is exactly the GB/T 32918.2 predicate", "statement": "VerifyDigestRS returns true iff the standard's verification equation holds ((e + x1) mod N = r with (x1,y1) = [s]G + [t]P, t = r+s mod N != 0, ranges respected).", "quantifier": "all public keys on the curve, all digests, all integers r,s", "why_tests_cant": "Equivalence over all inputs; the exceptional points with x=0 cannot be hit by testing.", "anchors": [{"file": "sm2/sm2.go", "symbols": ["VerifyDigestRS", "VerifyRS"]}]}
{"id": "C10", "title": "DER signature encoding round-trips", "statement": "For all integers r,s (any sign and magnitude such that the encoding fits the 4-byte DER length limit), UnmarshalSign(MarshalSign(r,s)) = (r,s).", "quantifier": "all pairs of integers within the builder's size limit", "why_tests_cant": "Unbounded integers; sign-byte and length-form boundaries.", "anchors": [{"file": "sm2/sm2.go", "symbols": ["MarshalSign", "UnmarshalSign"]}]}
{"id": "C11", "title": "DER signature decoding is strict: one encoding per signature", "statement": "If UnmarshalSign accepts a byte string then that string is exactly MarshalSign of the decoded pair: no trailing bytes, non-minimal lengths or integers are accepted, so DER signatures are not malleable at the encoding level.", "quantifier": "all byte strings", "why_tests_cant": "All byte strings is an infinite domain.", "anchors": [{"file": "sm2/sm2.go", "symbols": ["UnmarshalSign", "MarshalSign"]}]}
{"id": "C12", "title": "Nonces are always in [1, N-1] and derive from exactly 40 random bytes", "statement": "Every nonce used by signing and encryption lies in [1,N-1], is a function of the next 40 bytes of the random stream, and every value of [1,N-1] is attainable; a stream with fewer than 40 bytes yields an error and no nonce.", "quantifier": "all random streams", "why_tests_cant": "All 2^320 nonce inputs.", "anchors": [{"file": "sm2/sm2.go", "symbols": ["nextk"]}]}
{"id": "C13", "title": "SignDigestRS output ranges and failure modes", "statement": "SignDigestRS returns either r,s in [1,N-1] with r+s != 0 mod N, or the reader's error; it panics exactly when D = -1 mod N and a suitable nonce was read.", "quantifier": "all D (any integer), digests, random streams", "why_tests_cant": "The bad key is 1 in 2^256; streams are unbounded.", "anchors": [{"file": "sm2/sm2.go", "symbols": ["SignDigestRS"]}]}
{"id": "C14", "title": "User-id digest Z follows GB/T 32918.2 5.5", "statement": "SM3Digest(msg, uid) = SM3(Z || msg) with Z = SM3(ENTL || uid || a || b || xG || yG || xA || yA), with the default id 1234567812345678 for an empty uid, ENTL being the two-byte bit length of the uid.", "quantifier": "all messages, uids and public keys with coordinates < 2^256", "why_tests_cant": "All uid lengths: the 16-bit ENTL field wraps for long uids.", "anchors": [{"file": "sm2/sm2.go", "symbols": ["PublicKey.SM3Digest", "z", "appendBigIntTo32Bytes"]}]}
{"id": "C15", "title": "Verify is VerifyDigest of the SM3 digest", "statement": "For all inputs VerifyRS(pub,in,uid,r,s) = VerifyDigestRS(pub, SM3Digest(in,uid), r,s), and Verify = VerifyDigest composed with SM3Digest; Sign = SignDigest of SM3Digest.", "quantifier": "all inputs", "why_tests_cant": "Two separately written copies of the verification must agree on all inputs.", "anchors": [{"file": "sm2/sm2.go", "symbols": ["VerifyRS", "VerifyDigestRS", "Verify", "VerifyDigest", "SignRS", "Sign"]}]}
{"id": "C16", "title": "Methods agree with package functions", "statement": "Each PublicKey/PrivateKey method returns what the package-level function of the same name returns on the same arguments.", "quantifier": "all arguments", "why_tests_cant": "Equality for all inputs; argument swaps are invisible whenever message = uid.", "anchors": [{"file": "sm2/sm2.go", "symbols": ["PublicKey.VerifyRS", "PublicKey.Verify", "PublicKey.VerifyDigest", "PublicKey.VerifyDigestRS", "PrivateKey.Sign", "PrivateKey.SignRS", "PrivateKey.SignDigest", "PrivateKey.SignDigestRS"]}]}
{"id": "C17", "title": "SM2 decryption inverts encryption", "statement": "For every key pair with D in [1,N-1], message and random stream, if Encryt returns a ciphertext then Decryt returns the message with a nil error.", "quantifier": "all keys, messages, random streams", "why_tests_cant": "All nonces, including those whose point coordinates have leading zero bytes.", "anchors": [{"file": "sm2/sm2.go", "symbols": ["Encryt", "Decryt", "kdf"]}]}
{"id": "C18", "title": "Encryt never panics", "statement": "For every public key, every message and every random stream Encryt returns a ciphertext or an error.", "quantifier": "all messages (all lengths), keys, random streams", "why_tests_cant": "Message lengths and nonces are unbounded; failing nonces are 1 in 128.", "anchors": [{"file": "sm2/sm2.go", "symbols": ["Encryt", "kdf"]}]}
{"id": "C19", "title": "Decryt authenticates the plaintext", "statement": "Decryt returns a nil error only if the C3 field equals SM3(x2 || m || y2) for the returned m; when the check fails no plaintext is released.", "quantifier": "all keys and byte strings", "why_tests_cant": "All ciphertexts.", "anchors": [{"file": "sm2/sm2.go", "symbols": ["Decryt"]}]}
{"id": "C20", "title": "Decryt never panics on attacker-supplied bytes", "statement": "For every private key and every byte slice (with any capacity) Decryt returns a value or an error.", "quantifier": "all byte slices: contents, lengths and capacities", "why_tests_cant": "All ciphertext lengths.", "anchors": [{"file": "sm2/sm2.go", "symbols": ["Decryt", "kdf"]}]}
{"id": "C21", "title": "KDF follows GB/T 32918.4 5.4.3", "statement": "The key stream used for a message of klen bytes is the first klen bytes of SM3(x2||y2||1) || SM3(x2||y2||2) || ...", "quantifier": "all klen and points", "why_tests_cant": "All lengths.", "anchors": [{"file": "sm2/sm2.go", "symbols": ["kdf", "intToBytes"]}]}
{"id": "C22", "title": "Decryt rejects C1 off the curve", "statement": "If the first point of the ciphertext has a coordinate >= P or does not satisfy the curve equation, Decryt returns the error 'C1 is not on the curve' and performs no private-key operation.", "quantifier": "all keys and byte strings of at least 65 bytes", "why_tests_cant": "Invalid-curve inputs are an unbounded class.", "anchors": [{"file": "sm2/sm2.go", "symbols": ["Decryt"]}]}
{"id": "C23", "title": "GenerateKey returns a valid usable key pair or the reader's error", "statement": "Every key from GenerateKey has D in [1,N-2], public key [D]G on the curve.", "quantifier": "all random streams", "why_tests_cant": "Boundary keys are 1 in 2^256.", "anchors": [{"file": "sm2/sm2.go", "symbols": ["GenerateKey"]}]}
{"id": "C24", "title": "Key equality is an equivalence that matches the key material", "statement": "PublicKey.Equal / PrivateKey.Equal are reflexive, symmetric, transitive and true iff curve and coordinates (and D) are equal; comparing with another key type gives false.", "quantifier": "all pairs/triples of keys", "why_tests_cant": "All key pairs.", "anchors": [{"file": "sm2/sm2.go", "symbols": ["PublicKey.Equal", "PrivateKey.Equal"]}]}
{"id": "C25", "title": "RC2 decryption inverts encryption", "statement": "For every key accepted by rc2 New and every 8-byte block, Decrypt(Encrypt(b)) = b and Encrypt(Decrypt(b)) = b.", "quantifier": "all keys and blocks", "why_tests_cant": "2^64 blocks times all keys.", "anchors": [{"file": "pkcs12/rc2.go", "symbols": ["rc2Cipher.Encrypt", "rc2Cipher.Decrypt", "expandKey"]}]}
{"id": "C26", "title": "RC2 conforms to RFC 2268", "statement": "The cipher equals the RFC 2268 mixing/mashing schedule and key expansion for every key of 1..128 bytes and every effective bit length 1..1024.", "quantifier": "all keys, effective lengths, blocks", "why_tests_cant": "Unbounded domain.", "anchors": [{"file": "pkcs12/rc2.go", "symbols": ["expandKey", "rc2Cipher.Encrypt", "rc2Cipher.Decrypt"]}]}
{"id": "C27", "title": "RC2 key schedule index safety", "statement": "rc2 New never panics for keys of 1..128 bytes and 1..1024 effective bits, and what it does outside that range is characterised.", "quantifier": "all key lengths and effective lengths", "why_tests_cant": "All lengths.", "anchors": [{"file": "pkcs12/rc2.go", "symbols": ["expandKey", "New"]}]}
{"id": "C28", "title": "PKCS#12 key derivation conforms to RFC 7292 B.2", "statement": "pbkdf(hash,u,v,salt,password,r,ID,size) with u=20,v=64 returns exactly the first size bytes of the RFC 7292 Appendix B.2 derivation for every salt, password, ID, size and iteration count r >= 1.", "quantifier": "all salts, passwords, iteration counts, sizes", "why_tests_cant": "The carry arithmetic in I := I + B + 1 mod 2^v matters only for rare values.", "anchors": [{"file": "pkcs12/pbkdf.go", "symbols": ["pbkdf", "fillWithRepeats", "sha1Sum"]}]}
{"id": "C29", "title": "Salt and password stretching", "statement": "fillWithRepeats(p,v) is empty for empty p and otherwise the shortest v-multiple-length cyclic repetition of p that covers p.", "quantifier": "all byte strings, all v >= 1", "why_tests_cant": "All lengths.", "anchors": [{"file": "pkcs12/pbkdf.go", "symbols": ["fillWithRepeats"]}]}
{"id": "C30", "title": "BMP string encoding round-trips", "statement": "For every string of BMP scalar values decodeBMPString(bmpString(s)) = s, and bmpString fails exactly on strings with a code point above U+FFFF.", "quantifier": "all Go strings", "why_tests_cant": "All strings.", "anchors": [{"file": "pkcs12/bmp-string.go", "symbols": ["bmpString", "decodeBMPString"]}]}
{"id": "C31", "title": "bmpString is injective on passwords it accepts", "statement": "Two different accepted valid UTF-8 strings have different encodings, so distinct passwords are distinct key-derivation inputs (strings with invalid UTF-8 share an encoding exactly when they decode to the same code points); every encoding has even length and ends in 00 00.", "quantifier": "all pairs of strings", "why_tests_cant": "All pairs.", "anchors": [{"file": "pkcs12/bmp-string.go", "symbols": ["bmpString"]}]}
{"id": "C32", "title": "Password-based encryption round-trips", "statement": "pbDecrypt(pbEncrypt(m)) = m for every m, password, salt and iteration count, for both supported algorithms.", "quantifier": "all messages, passwords, salts, iteration counts", "why_tests_cant": "All lengths including block boundaries.", "anchors": [{"file": "pkcs12/crypto.go", "symbols": ["pbEncrypt", "pbDecrypt", "pbeCipherFor", "pbEncrypterFor", "pbDecrypterFor"]}]}
{"id": "C33", "title": "pbDecrypt accepts exactly well-padded plaintexts and never panics", "statement": "pbDecrypt succeeds iff the ciphertext is a nonempty multiple of 8 bytes and the decrypted text ends in k bytes of value k, 1<=k<=8; otherwise it returns an error.", "quantifier": "all ciphertexts, passwords, parameters with a parseable supported algorithm", "why_tests_cant": "All ciphertexts.", "anchors": [{"file": "pkcs12/crypto.go", "symbols": ["pbDecrypt"]}]}
{"id": "C34", "title": "PKCS#12 MAC", "statement": "verifyMac accepts iff the stored digest is the HMAC-SHA1 of the message under the RFC 7292 ID-3 key; computeMac followed by verifyMac with the same password succeeds; other MAC algorithms are rejected.", "quantifier": "all messages, salts, passwords, counts", "why_tests_cant": "All inputs.", "anchors": [{"file": "pkcs12/mac.go", "symbols": ["verifyMac", "computeMac"]}]}
{"id": "C35", "title": "PKCS#12 Encode / Decode round-trip", "statement": "For every supported key, certificate, CA list and password, decoding the encoded PFX with the same password gives the same key, leaf certificate and CA list in order.", "quantifier": "all keys, certificates, CA lists, passwords, random streams", "why_tests_cant": "All list lengths and contents.", "anchors": [{"file": "pkcs12/pkcs12.go", "symbols": ["Encode", "Decode", "DecodeAll", "getSafeContents", "makeSafeContents"]}, {"file": "pkcs12/safebags.go", "symbols": ["decodePkcs8ShroudedKeyBag", "encodePkcs8ShroudedKeyBag", "decodeCertBag", "encodeCertBag"]}]}
{"id": "C36", "title": "PKCS#12 contents are used only after the MAC verifies", "statement": "getSafeContents returns bags only when the MAC verified under the given password (or, for the empty password only, under the absent password); a PFX without MAC, of another version or with a number of safes other than two is rejected.", "quantifier": "all PFX structures and passwords", "why_tests_cant": "All inputs.", "anchors": [{"file": "pkcs12/pkcs12.go", "symbols": ["getSafeContents"]}]}
{"id": "C37", "title": "ToPEM reports failure", "statement": "ToPEM returns an error whenever the PFX cannot be opened (wrong password, damaged data).", "quantifier": "all byte strings and passwords", "why_tests_cant": "All inputs.", "anchors": [{"file": "pkcs12/pkcs12.go", "symbols": ["ToPEM", "convertBag"]}]}
{"id": "C38", "title": "Decode and DecodeAll reject duplicate keys and certificates independently of bag order", "statement": "Decode returns an error when the PFX has more than one certificate or key bag, and its success does not depend on the order of bags.", "quantifier": "all bag lists", "why_tests_cant": "All permutations of all bag lists.", "anchors": [{"file": "pkcs12/pkcs12.go", "symbols": ["Decode", "DecodeAll"]}]}
{"id": "C39", "title": "SM2 PKCS#12 helper functions", "statement": "SM2P12Decrypt of a file written by SM2P12Encrypt returns the same certificate and key; a read error is reported.", "quantifier": "all keys, certificates, passwords", "why_tests_cant": "All inputs.", "anchors": [{"file": "pkcs12/pkcs12.go", "symbols": ["SM2P12Encrypt", "SM2P12Decrypt"]}]}
{"id": "C40", "title": "Hash registry", "statement": "For every history of RegisterHash calls: a call panics exactly when the id is out of range; New(h) returns the constructor passed by the last call for h and panics exactly when that is nil or missing; Available(h) is true exactly when New(h) does not panic (except for h = 0, which Available always denies); Size panics exactly for ids that are not hashes. After package initialisation every documented hash is available.", "quantifier": "all registration histories and hash ids", "why_tests_cant": "Histories are unbounded.", "anchors": [{"file": "x509/x509.go", "symbols": ["Hash", "RegisterHash", "New", "Available", "Size"]}]}
{"id": "C41", "title": "checkSignature accepts only signatures by the given key", "statement": "checkSignature returns nil exactly when the algorithm is in the table, its hash is available, the public key is of a type the algorithm's family admits, and the primitive of that key type accepts the signature over the signed bytes (hashed with the algorithm's hash where the primitive takes a digest); unknown algorithms and algorithm / key-type mismatches are rejected.", "quantifier": "all algorithms, keys, messages, signatures", "why_tests_cant": "Decision table over open-ended inputs.", "anchors": [{"file": "x509/x509.go", "symbols": ["checkSignature"]}]}
{"id": "C42", "title": "CheckSignatureFrom enforces the CA rules", "statement": "A parent whose v3 BasicConstraints are missing or not CA, whose KeyUsage lacks certSign, or whose key algorithm is unknown is always rejected.", "quantifier": "all parent/child certificates", "why_tests_cant": "All combinations of fields.", "anchors": [{"file": "x509/x509.go", "symbols": ["Certificate.CheckSignatureFrom"]}]}
{"id": "C43", "title": "Algorithm and curve OID tables are consistent", "statement": "getSignatureAlgorithmFromAI recognises exactly the published AlgorithmIdentifier of each algorithm (for RSA-PSS: consistent hash, MGF1, salt and trailer); for every key and requested algorithm the signing parameters are found exactly when the key can sign with the algorithm's family, and the identifier they contain, encoded and parsed back, is recognised as that algorithm with that hash; the curve and extended-key-usage tables are the published ones and mutually inverse.", "quantifier": "all algorithms, curves and OIDs", "why_tests_cant": "Whole tables against all OIDs.", "anchors": [{"file": "x509/x509.go", "symbols": ["signatureAlgorithmDetails", "getSignatureAlgorithmFromAI", "namedCurveFromOID", "oidFromNamedCurve", "extKeyUsageOIDs", "extKeyUsageFromOID", "oidFromExtKeyUsage"]}]}
{"id": "C44", "title": "KeyUsage extension round-trips", "statement": "Marshalling a KeyUsage always succeeds and parsing the marshalled extension gives back its nine defined bits; every combination of the defined usages is returned unchanged. On the octets, bit i of the BIT STRING is bit i of the usage, with minimal padding (RFC 5280 4.2.1.3).", "quantifier": "all KeyUsage values", "why_tests_cant": "All integers.", "anchors": [{"file": "x509/x509.go", "symbols": ["marshalKeyUsage"]}, {"file": "x509/parser.go", "symbols": ["parseKeyUsageExtension"]}]}
{"id": "C45", "title": "BasicConstraints round-trip", "statement": "For every isCA, MaxPathLen, MaxPathLenZero the parsed extension yields the same CA flag and the same limit on the path length (or none).", "quantifier": "all booleans and path lengths", "why_tests_cant": "All integers.", "anchors": [{"file": "x509/x509.go", "symbols": ["marshalBasicConstraints"]}, {"file": "x509/parser.go", "symbols": ["parseBasicConstraintsExtension"]}]}
{"id": "C46", "title": "ExtKeyUsage round-trip", "statement": "Parsing the marshalled extension returns the known usages and unknown OIDs in order; marshalling fails exactly for an unknown usage constant.", "quantifier": "all lists", "why_tests_cant": "All lists.", "anchors": [{"file": "x509/x509.go", "symbols": ["marshalExtKeyUsage"]}, {"file": "x509/parser.go", "symbols": ["parseExtKeyUsageExtension"]}]}
{"id": "C47", "title": "SubjectAltName round-trip and rejection of malformed names", "statement": "Marshalled DNS names, e-mail addresses, IPs and URIs are parsed back to the same lists; non-IA5 strings and IPs of a length other than 4 or 16 are rejected.", "quantifier": "all lists of names", "why_tests_cant": "All lists.", "anchors": [{"file": "x509/x509.go", "symbols": ["marshalSANs", "isIA5String"]}, {"file": "x509/parser.go", "symbols": ["parseSANExtension", "forEachSAN"]}]}
{"id": "C48", "title": "IP constraint masks", "statement": "isValidIPMask accepts exactly the masks of the form 1...10...0.", "quantifier": "all byte strings", "why_tests_cant": "All masks.", "anchors": [{"file": "x509/parser.go", "symbols": ["isValidIPMask"]}]}
{"id": "C49", "title": "DNS name labels", "statement": "domainToReverseLabels accepts a host name exactly when it consists of non-empty labels of printable ASCII characters joined by periods (one leading period is ignored, the empty name has no labels), and returns exactly those labels in reverse.", "quantifier": "all strings", "why_tests_cant": "All strings.", "anchors": [{"file": "x509/parser.go", "symbols": ["domainToReverseLabels"]}]}
{"id": "C50", "title": "RFC 2821 mailbox parsing", "statement": "parseRFC2821Mailbox never indexes out of range; it accepts exactly the mailboxes whose local part is a quoted string or a dot-atom (with backslash escapes) followed by '@' and a valid host name, and returns the unescaped local part and the domain.", "quantifier": "all strings", "why_tests_cant": "All strings.", "anchors": [{"file": "x509/parser.go", "symbols": ["parseRFC2821Mailbox"]}]}
{"id": "C51", "title": "Unhandled critical extensions are recorded", "statement": "The OIDs appended to UnhandledCriticalExtensions are, in order, exactly those of the critical extensions the parser cannot act on (unknown OID, a SubjectAltName with no usable name, a NameConstraints with an unknown name type); non-critical extensions are never listed.", "quantifier": "all extension lists", "why_tests_cant": "All lists.", "anchors": [{"file": "x509/parser.go", "symbols": ["processExtensions"]}]}
{"id": "C52", "title": "ParseCertificates is the concatenation of ParseCertificate", "statement": "ParseCertificates(c1||...||cn) succeeds iff each ci parses, and returns those certificates in order with Raw = ci; ParseCertificate rejects trailing data.", "quantifier": "all byte strings", "why_tests_cant": "All lists of certificates.", "anchors": [{"file": "x509/parser.go", "symbols": ["ParseCertificates", "ParseCertificate", "parseCertificate"]}]}
{"id": "C53", "title": "PKCS#8 private keys round-trip", "statement": "ParsePKCS8PrivateKey(MarshalPKCS8PrivateKey(k)) = k for SM2 keys (and every other supported type), and unsupported types are errors.", "quantifier": "all keys", "why_tests_cant": "All keys, including D with leading zero bytes.", "anchors": [{"file": "x509/pkcs8.go", "symbols": ["MarshalPKCS8PrivateKey", "ParsePKCS8PrivateKey"]}]}
{"id": "C54", "title": "SEC1 EC private keys", "statement": "Parsing a marshalled EC/SM2 private key returns the same D with public key [D]G; D >= N and over-long non-zero-padded octets are rejected.", "quantifier": "all keys and all octet strings", "why_tests_cant": "All keys, all paddings.", "anchors": [{"file": "x509/sec1.go", "symbols": ["parseECPrivateKey", "marshalECPrivateKeyWithOID", "marshalSM2PrivateKeyWithOID"]}]}
{"id": "C55", "title": "PKCS#1 RSA keys", "statement": "ParsePKCS1PrivateKey/PublicKey invert the marshal functions, reject non-positive values and other versions.", "quantifier": "all RSA keys", "why_tests_cant": "All keys.", "anchors": [{"file": "x509/pkcs1.go", "symbols": ["ParsePKCS1PrivateKey", "MarshalPKCS1PrivateKey", "ParsePKCS1PublicKey", "MarshalPKCS1PublicKey"]}]}
{"id": "C56", "title": "PKIX public keys round-trip", "statement": "ParsePKIXPublicKey(MarshalPKIXPublicKey(k)) = k for every SM2 key on the curve; points off the curve are rejected; trailing data is rejected.", "quantifier": "all keys", "why_tests_cant": "All keys, with leading zero coordinates.", "anchors": [{"file": "x509/x509.go", "symbols": ["MarshalPKIXPublicKey", "ParsePKIXPublicKey", "marshalPublicKey"]}, {"file": "x509/parser.go", "symbols": ["parsePublicKey"]}]}
{"id": "C57", "title": "PKCS#7 Verify soundness", "statement": "Verify returns nil only if there is at least one signer and, for every signer, a certificate with its issuer and serial is embedded and that certificate's key verified the signature over the content (or over attributes that contain the content digest).", "quantifier": "all PKCS7 structures", "why_tests_cant": "All structures.", "anchors": [{"file": "x509/pkcs7.go", "symbols": ["PKCS7.Verify", "verifySignature", "getCertFromCertsByIssuerAndSerial", "unmarshalAttribute"]}]}
{"id": "C58", "title": "PKCS#7 sign, serialise, parse, verify", "statement": "Data signed by the library, serialised and parsed again verifies.", "quantifier": "all contents, keys, certificates", "why_tests_cant": "All contents.", "anchors": [{"file": "x509/pkcs7.go", "symbols": ["NewSignedData", "getSignerInfoWithAttr", "ParsePKCS7", "PKCS7.Verify"]}]}
{"id": "C59", "title": "PKCS#7 signed attributes are order independent", "statement": "The bytes signed for a set of attributes do not depend on the order in which the caller adds them.", "quantifier": "all permutations of all attribute lists", "why_tests_cant": "Permutations.", "anchors": [{"file": "x509/pkcs7.go", "symbols": ["marshalAttributes", "attributes.ForMarshaling"]}]}
{"id": "C60", "title": "PKCS#7 attribute signatures are not valid content signatures", "statement": "A signature made over signed attributes is not accepted as a signature over some other content.", "quantifier": "all signed messages", "why_tests_cant": "Adversarial inputs.", "anchors": [{"file": "x509/pkcs7.go", "symbols": ["verifySignature"]}]}
{"id": "C61", "title": "PKCS#7 parsing and signing report errors", "statement": "Malformed SignedData and failing signers are reported as errors.", "quantifier": "all inputs", "why_tests_cant": "All inputs.", "anchors": [{"file": "x509/pkcs7.go", "symbols": ["parseSignedData", "NewSignedData"]}]}
{"id": "C62", "title": "A certificate request is read back as it was made", "statement": "For every template and signer (names as in C51, attribute values strings, octet strings, int64s or object identifiers, a raw subject only if it is a well-formed RDNSequence, no SubjectAltName among the extra extensions) for which CreateCertificateRequest succeeds, ParseCertificateRequest accepts the result and returns the template's subject, names, the signer's key, the requested algorithm (or the default one), every requested extension with its critical flag, and the template's attributes (values of a set in any order) followed by one extensionRequest attribute. The signature is what the signer returned for the digest of the signed part with the hash of the algorithm as options (never PSS options), so CheckSignature accepts the request if the signer's signatures verify; with SM2 the digest lacks the prefix Z which CheckSignature uses, so such a request verifies only if the two digests agree. If the template already has an extensionRequest attribute, the requested extensions with other identifiers are appended to it and all extensions lose the critical flag.", "quantifier": "all templates, signers and registries of hash functions", "why_tests_cant": "All templates with any number of attributes, names and extensions.", "anchors": [{"file": "x509/x509.go", "symbols": ["CreateCertificateRequest", "ParseCertificateRequest", "CertificateRequest.CheckSignature", "parseCSRExtensions", "buildCSRExtensions", "newRawAttributes"]}]}
{"id": "C63", "title": "CreateCertificate preconditions and self-check", "statement": "CreateCertificate succeeds only with a crypto.Signer, a serial number, no path length in a template that is not a CA's, a signing key and requested algorithm of the same supported family, a public key that can be marshalled, and a parent whose public key (if known) is the signer's; otherwise it returns an error and does not panic. The returned certificate carries the octets the signer returned for the digest of the signed part, and unless the algorithm is MD5WithRSA, SHA1WithRSA or ECDSAWithSHA1 that signature was verified against the signer's public key. No certificate can be made with an Ed25519 key, and a signer for SM2 that signs the digest it is given always fails the check, unless two different SM3 digests agree modulo the group order.", "quantifier": "all templates, parents, public keys, signers", "why_tests_cant": "All combinations.", "anchors": [{"file": "x509/x509.go", "symbols": ["CreateCertificate", "signingParamsForPublicKey", "buildCertExtensions"]}]}
{"id": "C64", "title": "CreateRevocationList preconditions", "statement": "CreateRevocationList succeeds only with a template and an issuer, an issuer with the crlSign key usage bit and a subject key identifier, a NextUpdate not before ThisUpdate, a Number, and a signing key that fits the requested algorithm; in all other cases it returns an error and never panics.", "quantifier": "all templates and issuers", "why_tests_cant": "All combinations.", "anchors": [{"file": "x509/x509.go", "symbols": ["CreateRevocationList"]}]}
{"id": "C65", "title": "Directory strings are validated", "statement": "parseASN1String accepts, for each ASN.1 string type, exactly the byte strings legal for it (PrintableString additionally tolerates '*' and '&', a BMPString may have a terminating zero) and returns what they denote; other types are rejected.", "quantifier": "all byte strings and tags", "why_tests_cant": "All strings.", "anchors": [{"file": "x509/parser.go", "symbols": ["parseASN1String", "isPrintable"]}]}
{"id": "C66", "title": "No PKCS#12 file or certificate makes the decoder panic", "statement": "Decode, DecodeAll, ToPEM, SM2P12Decrypt, ParseCertificate and ParseCertificates return a value or an error for every byte string and every password; they never panic.", "quantifier": "every file content, every password", "why_tests_cant": "the input is attacker-controlled DER of unbounded depth and size; tests sample it", "anchors": [{"file": "pkcs12/pkcs12.go", "symbols": ["Decode", "DecodeAll", "ToPEM", "SM2P12Decrypt", "getSafeContents"]}, {"file": "pkcs12/crypto.go", "symbols": ["pbDecrypt"]}, {"file": "x509/pkcs8.go", "symbols": ["ParsePKCS8PrivateKey"]}]}
{"id": "C67", "title": "Signing-only algorithms are refused when verifying", "statement": "The algorithms documented as supported for signing only (MD5WithRSA, SHA1WithRSA, ECDSAWithSHA1) are never accepted by CheckSignature.", "quantifier": "all keys, messages, signatures", "why_tests_cant": "Decision table over open-ended inputs.", "anchors": [{"file": "x509/x509.go", "symbols": ["checkSignature", "SignatureAlgorithm"]}]}
{"id": "C68", "title": "Extension parsers accept exactly the well-formed extensions", "statement": "For each of the ten certificate extensions the parser knows, a value is accepted if and only if it is DER of the form RFC 5280 gives for it (with well-formed host names, mailboxes, IP ranges and URIs), and the values stored are the ones that DER denotes; a certificate's extensions are accepted iff each known one is well formed.", "quantifier": "all byte strings as extension values, all extension lists", "why_tests_cant": "acceptance and rejection range over all byte strings", "anchors": [{"file": "x509/parser.go", "symbols": ["processExtensions", "parseKeyUsageExtension", "parseBasicConstraintsExtension", "forEachSAN", "parseSANExtension", "parseExtKeyUsageExtension", "parseCertificatePoliciesExtension", "parseNameConstraintsExtension"]}]}
{"id": "C69", "title": "Template fields survive extension building and parsing", "statement": "Whenever buildCertExtensions succeeds on a template, processing the resulting extensions restores key usage, extended key usages, basic constraints, key identifiers, AIA, alternative names, policies, name constraints and CRL distribution points of the template; an extension supplied in ExtraExtensions replaces the generated one.", "quantifier": "all certificate templates, authority and subject key ids", "why_tests_cant": "all combinations of ten optional extensions with lists of any length", "anchors": [{"file": "x509/x509.go", "symbols": ["buildCertExtensions", "oidInExtensions"]}, {"file": "x509/parser.go", "symbols": ["processExtensions"]}]}
{"id": "C70", "title": "ParseCertificate accepts exactly the certificates of the grammar", "statement": "ParseCertificate succeeds on a byte string if and only if it is DER of an X.509 certificate (inner and outer algorithm identifiers equal, version 1 to 3, valid names, times and key, extensions in version 3 only, each known extension well formed); every field of the result is the one those octets encode, and no byte string has two readings.", "quantifier": "all byte strings", "why_tests_cant": "acceptance, rejection and unambiguity range over all byte strings", "anchors": [{"file": "x509/parser.go", "symbols": ["parseCertificate", "parseName", "parseAI", "parseValidity", "parsePublicKey", "parseExtension", "processExtensions", "ParseCertificate"]}]}
{"id": "C71", "title": "The signed part determines the parsed certificate", "statement": "If two byte strings parse to certificates with the same RawTBSCertificate, all fields of the results are equal except Raw and Signature: nothing a signature does not cover can change subject, key, validity, extensions or algorithm.", "quantifier": "all pairs of byte strings", "why_tests_cant": "all pairs of byte strings an attacker could craft", "anchors": [{"file": "x509/parser.go", "symbols": ["parseCertificate", "ParseCertificate"]}]}
{"id": "C72", "title": "CreateCertificate output parses back to the template", "statement": "Every certificate CreateCertificate returns is accepted by ParseCertificate, with version 3, the template's serial number, subject, validity period, public key and extension fields, the parent's name as issuer, the requested (or default) algorithm, key identifiers chosen as documented, the caller's extra extensions last, and the signer's signature over the digest of the signed part.", "quantifier": "all templates, parents, keys and signers whose names, times and extension values have an encoding", "why_tests_cant": "combinations of template fields and signers are unbounded", "anchors": [{"file": "x509/x509.go", "symbols": ["CreateCertificate", "buildCertExtensions", "marshalPublicKey"]}, {"file": "x509/parser.go", "symbols": ["ParseCertificate", "parseCertificate", "processExtensions"]}]}
{"id": "C73", "title": "CreateRevocationList output parses back to the template", "statement": "A list made by CreateRevocationList is accepted by ParseDERCRL with the issuer's name, the template's times, entries and extra extensions, the authority key identifier and list number, the requested (or default) algorithm inside and outside, and the signature the signer made for the digest of the signed part; CheckCRLSignature accepts it if the signer's signatures verify. With an SM2 signer that signs the digest it is given CheckCRLSignature rejects it, unless two different SM3 digests agree modulo the group order.", "quantifier": "all templates, issuers and signers whose names, times and extensions have an encoding", "why_tests_cant": "combinations of template fields, entries and signers are unbounded", "anchors": [{"file": "x509/x509.go", "symbols": ["CreateRevocationList", "ParseDERCRL", "CheckCRLSignature"]}]}
{"id": "C74", "title": "CreateCRL output parses back and verifies for SM2", "statement": "A list made by Certificate.CreateCRL is accepted by ParseDERCRL with the issuer's name, the given times and entries and the authority key identifier; the signer gets the digest of the signed part, or for SM2 the signed part itself, and if it then makes signatures as in GB/T 32918.2 (as sm2.Sign does) CheckCRLSignature accepts the list, except when r equals the digest modulo the order.", "quantifier": "all certificates, lists of entries, times, keys and signers", "why_tests_cant": "all lists and keys", "anchors": [{"file": "x509/x509.go", "symbols": ["Certificate.CreateCRL", "ParseDERCRL", "CheckCRLSignature"]}]}
{"id": "C75", "title": "The signed octets determine a revocation list", "statement": "If two inputs of ParseDERCRL give lists with the same signed octets (TBSCertList.Raw), they have the same version, issuer, times, entries, extensions and inner algorithm; the algorithm outside of the signed part is not compared with the inner one. ParseCRL reads a PEM block of type X509 CRL if the input begins like one and DER otherwise.", "quantifier": "all pairs of byte strings", "why_tests_cant": "all inputs an attacker could craft", "anchors": [{"file": "x509/x509.go", "symbols": ["ParseCRL", "ParseDERCRL"]}]}
{"id": "C76", "title": "What CreateCertificateRequest requires", "statement": "CreateCertificateRequest succeeds only with a signer whose key type can sign (RSA, ECDSA on a supported curve, SM2, Ed25519) with the requested algorithm family and whose public key can be marshalled; in every other case it returns an error, and it never panics.", "quantifier": "all templates and signers", "why_tests_cant": "All combinations of key and algorithm, all templates.", "anchors": [{"file": "x509/x509.go", "symbols": ["CreateCertificateRequest", "ParseCertificateRequest", "CertificateRequest.CheckSignature", "parseCSRExtensions", "buildCSRExtensions", "newRawAttributes"]}]}
{"id": "C77", "title": "The signed octets determine a request", "statement": "Two requests accepted by ParseCertificateRequest with the same RawTBSCertificateRequest agree in every field except Raw, Signature and SignatureAlgorithm: nothing outside of the signed part influences them.", "quantifier": "all pairs of octet strings", "why_tests_cant": "All pairs of inputs.", "anchors": [{"file": "x509/x509.go", "symbols": ["CreateCertificateRequest", "ParseCertificateRequest", "CertificateRequest.CheckSignature", "parseCSRExtensions", "buildCSRExtensions", "newRawAttributes"]}]}
{"id": "C78", "title": "GetOnlySigner returns exactly the certificate of the only signer", "statement": "For a message accepted by ParsePKCS7, GetOnlySigner returns a certificate iff the message has exactly one signer and one of its certificates has that signer's issuer and serial number, and then it is the first such certificate; otherwise it returns nil. If Verify also accepted the message, that is the certificate whose key the signature verified with.", "quantifier": "all byte strings accepted by ParsePKCS7", "why_tests_cant": "All messages, including attacker-made ones with several certificates and signers.", "anchors": [{"file": "x509/pkcs7.go", "symbols": ["PKCS7.GetOnlySigner", "getCertFromCertsByIssuerAndSerial", "isCertMatchForIssuerAndSerial"]}]}
{"id": "C79", "title": "UnmarshalSignedAttribute returns a signed value", "statement": "UnmarshalSignedAttribute returns the value of the first attribute of the requested type of the first signer and an error if there is no signer, no such attribute or it does not decode; after a successful Verify the value it returns is inside the octets that the first signer's signature was verified over. It never panics.", "quantifier": "all messages, attribute types and value types", "why_tests_cant": "All messages and attribute lists.", "anchors": [{"file": "x509/pkcs7.go", "symbols": ["PKCS7.UnmarshalSignedAttribute", "unmarshalAttribute", "PKCS7.Verify"]}]}
{"id": "C80", "title": "Certificate.Equal is equality of the encodings", "statement": "Equal is an equivalence relation; nil equals only nil; two certificates returned by ParseCertificate are Equal iff they were parsed from the same octets, and then agree in every field.", "quantifier": "all pairs of certificates and byte strings", "why_tests_cant": "All pairs.", "anchors": [{"file": "x509/x509.go", "symbols": ["Certificate.Equal"]}, {"file": "x509/parser.go", "symbols": ["ParseCertificate"]}]}
{"id": "C81", "title": "Algorithm names are unambiguous", "statement": "SignatureAlgorithm.String, PublicKeyAlgorithm.String and Hash.String give different texts for different values, for all values of the types, defined or not; every defined signature algorithm and hash has its own name.", "quantifier": "all integers of the three types", "why_tests_cant": "All values, including the undefined ones printed as numbers.", "anchors": [{"file": "x509/x509.go", "symbols": ["SignatureAlgorithm.String", "PublicKeyAlgorithm.String", "Hash.String"]}]}
{"id": "C82", "title": "Names survive writing and reading", "statement": "The subject of a template (certificate or request) and the parent's subject written as the issuer come back with every field of pkix.Name holding the same values (or those of the extra names that replace a field), up to the order of several values of one field, which is not kept. A revocation list for a parsed issuer has the names of the issuer's subject if that was written from the fields; if the subject has an attribute of any other type, the list made by CreateRevocationList or CreateCRL has another issuer name than the subject of its issuer.", "quantifier": "all names, templates, issuers", "why_tests_cant": "All combinations of name fields, values and extra names.", "anchors": [{"file": "x509/x509.go", "symbols": ["CreateCertificate", "CreateCertificateRequest", "CreateRevocationList", "subjectBytes"]}, {"file": "x509/parser.go", "symbols": ["parseName"]}]}
{"id": "C83", "title": "Issued certificates verify under their issuer", "statement": "A certificate that CreateCertificate makes for a parent that may sign certificates, with the parent's key and a checked algorithm, parses, has the octets of the parent's subject as issuer and is accepted by CheckSignatureFrom(parent); a self-signed CA certificate verifies under itself.", "quantifier": "all templates, parents, keys and signers", "why_tests_cant": "Combinations of templates, keys and algorithms are unbounded.", "anchors": [{"file": "x509/x509.go", "symbols": ["CreateCertificate", "Certificate.CheckSignatureFrom"]}, {"file": "x509/parser.go", "symbols": ["ParseCertificate"]}]}
{"id": "C84", "title": "Exactly which SM2 signatures are accepted", "statement": "Everything SignDigestRS returns is a valid signature in the sense of GB/T 32918.2. VerifyDigestRS accepts (r,s) iff the standard's predicate holds and the point [s]G + [t]P does not have x-coordinate 0; a signature made by SignDigestRS is accepted iff its nonce point does not have x-coordinate 0.", "quantifier": "all keys, digests, random streams, integers r and s", "why_tests_cant": "Equivalence over all inputs; the exception cannot be hit by testing.", "anchors": [{"file": "sm2/sm2.go", "symbols": ["SignDigestRS", "VerifyDigestRS"]}]}
{"id": "C85", "title": "Exactly when SM2 encryption and decryption panic", "statement": "Encryt panics iff the first nonce with a usable key stream gives a point with a coordinate of fewer than 32 significant octets, or the message is longer than 32 octets and its length is no multiple of 32. Decryt panics iff the input is empty, or the point does not fit in the slice's capacity, or the point is on the curve, the key stream is usable and the masked part is longer than 32 octets and no multiple of 32.", "quantifier": "all keys, messages, ciphertexts, capacities and random streams", "why_tests_cant": "All lengths, nonces and capacities.", "anchors": [{"file": "sm2/sm2.go", "symbols": ["Encryt", "Decryt", "kdf"]}]}
{"id": "C86", "title": "Plaintexts that Decryt accepts are authentic", "statement": "If Decryt returns m with a nil error then C1 is a point on the curve other than infinity, m has the length of the masked part, and C3 = SM3(x2 || m || y2) with (x2,y2) = [D]C1.", "quantifier": "all keys, byte strings, capacities", "why_tests_cant": "All ciphertexts.", "anchors": [{"file": "sm2/sm2.go", "symbols": ["Decryt"]}]}
{"id": "C87", "title": "The key stream Encryt and Decryt use", "statement": "For klen octets the key stream is the concatenation over i = 1, 2, ..., ceil(klen/32) of the first w octets of SM3 of the concatenation of all x2||y2||j, j up to i, where w is the length of the last block; it is refused iff all of it is zero. It has klen octets iff klen is at most 32 or a multiple of 32.", "quantifier": "all lengths and points", "why_tests_cant": "All lengths.", "anchors": [{"file": "sm2/sm2.go", "symbols": ["kdf", "intToBytes"]}]}
{"id": "C88", "title": "Exactly which key GenerateKey returns", "statement": "GenerateKey reads 32 octets at a time, returns the first value below N as D with public key [D]G on the SM2 curve and leaves the rest of the stream unread; if the stream ends first it returns the reader's error. It never panics.", "quantifier": "all random streams", "why_tests_cant": "All streams.", "anchors": [{"file": "sm2/sm2.go", "symbols": ["GenerateKey"]}]}
{"id": "C89", "title": "Exactly what Decode, DecodeAll and ToPEM return", "statement": "For a file that opens: DecodeAll succeeds iff every bag decodes and there is a key and a certificate and no second certificate after the last key; it returns the last key and all certificates in order; Decode returns the last certificate; ToPEM converts every bag. For a file that does not open Decode and DecodeAll fail and ToPEM returns no blocks and no error.", "quantifier": "all files and passwords", "why_tests_cant": "All bag lists and orders.", "anchors": [{"file": "pkcs12/pkcs12.go", "symbols": ["Decode", "DecodeAll", "ToPEM", "convertBag", "getSafeContents"]}]}
{"id": "C90", "title": "PublicKey and PrivateKey methods other than VerifyRS agree with the package functions; VerifyRS swaps", "statement": "Each method except PublicKey.VerifyRS returns what the package function of that name returns on the same arguments; PublicKey.VerifyRS(msg, uid) is the package function on (uid, msg).", "quantifier": "all arguments", "why_tests_cant": "Equality for all inputs; swaps are invisible if message = uid.", "anchors": [{"file": "sm2/sm2.go", "symbols": ["PublicKey.VerifyRS", "PublicKey.Verify", "PrivateKey.Sign"]}]}
{"id": "C91", "title": "A verified PKCS#7 message is well formed, and signing failures are reported", "statement": "A message that ParsePKCS7 and Verify accept is a ContentInfo of type SignedData without trailing octets in which every field decoded; NewSignedData and NewSignedDataCallBack return a message only if the signer returned a signature for the encoded attributes and the certificate has a serial number.", "quantifier": "all byte strings; all certificates, keys, callbacks and contents", "why_tests_cant": "All inputs.", "anchors": [{"file": "x509/pkcs7.go", "symbols": ["ParsePKCS7", "PKCS7.Verify", "NewSignedData", "NewSignedDataCallBack"]}]}
{"id": "C92", "title": "Private key parsers accept exactly the DER of valid keys", "statement": "ParsePKCS1PrivateKey, ParseECPrivateKey and ParsePKCS8PrivateKey accept an octet string if and only if it is, octet for octet, the DER structure of RFC 8017 / RFC 5915 / RFC 5208 (version at most 1 / exactly 1 / any; optional trailing fields) holding a valid key (RSA: factors > 2 with product n and e·d ≡ 1 modulo each p-1, 2 ≤ e < 2^31; EC: known curve, number below the order, any number of leading zeros; Ed25519: 32-octet seed, no parameters), and then return exactly that key; the EC public key is computed, never taken from the input. PKCS #1 rejects trailing data; SEC 1 and PKCS #8 ignore it.", "quantifier": "all octet strings and all keys", "why_tests_cant": "acceptance is decided by a hand-written structure description and reflection-driven DER reader; only a characterisation over all octet strings shows that nothing else is accepted and nothing valid is refused", "anchors": [{"file": "x509/pkcs1.go", "symbols": ["ParsePKCS1PrivateKey"]}, {"file": "x509/sec1.go", "symbols": ["ParseECPrivateKey", "parseECPrivateKey"]}, {"file": "x509/pkcs8.go", "symbols": ["ParsePKCS8PrivateKey"]}]}
{"id": "C93", "title": "Public key parsers accept exactly the DER of keys of the four algorithms", "statement": "ParsePKCS1PublicKey accepts exactly RSAPublicKey structures with positive modulus and exponent in 1..2^31-1 and nothing behind them; ParsePKIXPublicKey accepts exactly SubjectPublicKeyInfo structures with nothing behind them whose algorithm is RSA, DSA, EC or Ed25519 and whose bits are a key of it (EC: an uncompressed point on the named curve), and both return exactly the key encoded.", "quantifier": "all octet strings and all keys", "why_tests_cant": "needs all octet strings: both directions of an equivalence between a parser and a grammar", "anchors": [{"file": "x509/pkcs1.go", "symbols": ["ParsePKCS1PublicKey"]}, {"file": "x509/x509.go", "symbols": ["ParsePKIXPublicKey"]}, {"file": "x509/parser.go", "symbols": ["parsePublicKey"]}]}
{"id": "C94", "title": "ParseDERCRL accepts exactly the DER of revocation lists", "statement": "ParseDERCRL accepts an octet string if and only if it is, to the last octet, a CertificateList (RFC 5280 5.1; version, nextUpdate, revokedCertificates and extensions may be missing, fields may be followed by further elements inside a sequence), and the returned structure holds exactly the values encoded: version, both algorithm identifiers, issuer attributes, times, entries with serial number, time and extensions, extensions, signature bits, and the octets of the signed part. ParseCRL parses the first PEM block when the input begins with the X509 CRL header and the block has that type, else the input itself.", "quantifier": "all octet strings and all field values", "why_tests_cant": "an equivalence between a parser and a grammar over all octet strings", "anchors": [{"file": "x509/x509.go", "symbols": ["ParseDERCRL", "ParseCRL"]}]}
{"id": "C95", "title": "ParseCertificateRequest accepts exactly the DER of certificate requests", "statement": "ParseCertificateRequest accepts an octet string if and only if it is, to the last octet, a CertificationRequest (RFC 2986) whose key, if of a known algorithm, is a valid key, whose extensionRequest attributes hold well-formed extension lists and whose SubjectAltName extensions are well formed; the result holds exactly the values encoded: attributes that are sets of sequences of types and values (others are left out), the extensions of all extensionRequest attributes in order, and the names of the last SubjectAltName extension.", "quantifier": "all octet strings, all requests, all URL parsers", "why_tests_cant": "an equivalence between a parser and a grammar over all octet strings", "anchors": [{"file": "x509/x509.go", "symbols": ["ParseCertificateRequest", "parseCertificateRequest", "parseCSRExtensions", "parseRawAttributes"]}]}
{"id": "C96", "title": "ParsePKCS7 and Verify accept exactly the signed messages of the grammar", "statement": "ParsePKCS7(data) returns content, certificates, revocation lists and signers if and only if data is, to the last octet, a ContentInfo of type 1.2.156.10197.6.1.4.2.2 whose octets stand for them as a SignedData (RFC 2315), where a field of the SignedData that cannot be read, and all after it, count as missing. If there are signers, the whole SignedData is well-formed. Parsing and then verifying succeeds if and only if moreover every signer has an embedded certificate with its issuer and serial number whose key accepts the signature over the content, or over the DER SET of the signed attributes holding the SM3 digest of the content.", "quantifier": "all octet strings, messages, certificate environments, hash functions and external verifiers", "why_tests_cant": "an equivalence between parser plus verifier and a grammar over all octet strings", "anchors": [{"file": "x509/pkcs7.go", "symbols": ["ParsePKCS7", "parseSignedData", "rawCertificates.Parse", "(*PKCS7).Verify", "verifySignature", "marshalAttributes"]}]}
{"id": "C97", "title": "pkcs12 Decode and DecodeAll accept exactly the PFX files for the password", "statement": "DecodeAll(data, password) returns a key and certificates if and only if data is, to the last octet, a version 3 PFX (RFC 7292) with two safes, in the clear or encrypted by the password with 3-key Triple DES or 40-bit RC2, whose MAC over the authenticated safe is right for the password (for the empty password also as absent password), every certificate bag holds one X.509 certificate, every key bag an encrypted PKCS #8 key, there is a key and a certificate, and no certificate comes after the last key unless it is the only one; it returns the last key and all certificates in order. Decode accepts the same and returns the last certificate.", "quantifier": "all octet strings, passwords, keys, certificates, certificate parsers and hash / block cipher primitives", "why_tests_cant": "an equivalence between a decoder and a grammar over all octet strings and passwords", "anchors": [{"file": "pkcs12/pkcs12.go", "symbols": ["Decode", "DecodeAll", "getSafeContents"]}, {"file": "pkcs12/safebags.go", "symbols": ["decodeCertBag", "decodePkcs8ShroudedKeyBag"]}, {"file": "pkcs12/mac.go", "symbols": ["verifyMac"]}, {"file": "pkcs12/crypto.go", "symbols": ["pbDecrypt"]}]}
{"id": "C98", "title": "ToPEM returns exactly one block per bag of the PFX", "statement": "ToPEM(data, password) succeeds with the given blocks if and only if either data is not a PFX for the password and there are no blocks (the error is lost), or it is one and every bag has a block, in order: a certificate bag a CERTIFICATE block with the certificate, a key bag a PRIVATE KEY block with the key as PKCS #1 (RSA) or SEC 1 (ECDSA), with the headers friendlyName, localKeyId (hexadecimal) and Microsoft CSP Name taken from the attributes. Consequently ToPEM of what Encode made gives the certificate with the SHA-1 fingerprint as local key id, the CA certificates and the key, and it fails for every file that Encode made for an SM2 key.", "quantifier": "all octet strings, passwords, keys, certificates, random sources and hash / block cipher primitives", "why_tests_cant": "an equivalence between a converter and a grammar over all octet strings and passwords", "anchors": [{"file": "pkcs12/pkcs12.go", "symbols": ["ToPEM", "convertBag", "convertAttribute", "Encode"]}, {"file": "pkcs12/bmp-string.go", "symbols": ["decodeBMPString"]}]}
{"id": "C99", "title": "Parsing plus signature checking, octet by octet", "statement": "ParseCertificate followed by CheckSignatureFrom succeeds if and only if the octets are a certificate (grammar of C52), the parent may sign certificates and has a known key type, and the signature octets are a signature by the parent key of exactly the octets of the signed part under the algorithm named inside the signed part. ParseDERCRL followed by CheckCRLSignature: the same with the algorithm named outside the signed part, with no check of the inner algorithm and of the signer's right to sign lists. ParseCertificateRequest followed by CheckSignature: the same with the key inside the request. For SM2 keys each acceptance means a valid GB/T 32918.2 signature under a finite curve point.", "quantifier": "all octet strings, all parents, all registered hashes and external verifiers", "why_tests_cant": "an equivalence over all octet strings; a test only shows individual accepted and rejected objects", "anchors": [{"file": "x509/parser.go", "symbols": ["ParseCertificate"]}, {"file": "x509/x509.go", "symbols": ["CheckSignatureFrom", "CheckSignature", "CheckCRLSignature", "ParseDERCRL", "ParseCertificateRequest", "checkSignature"]}]}
{"id": "C100", "title": "No octets have two meanings", "statement": "The octets that a signature is over never belong to two of: certificate, revocation list, certificate request, PKCS#7 signer with attributes. No octet string is accepted by the parsers of two kinds of objects (certificate, revocation list, request, PKCS#7, PFX, PKIX public key, PKCS#8, PKCS#1 private key, SEC 1 private key); ParsePKCS1PublicKey overlaps only with PKCS#1 private keys of version 1 with a modulus below 2^31. A PKCS#7 signer without attributes is not covered: the signature of an SM2 certificate is accepted as a PKCS#7 signature of its signed part.", "quantifier": "all octet strings, all parsers and all passwords", "why_tests_cant": "a statement that no octet string exists; tests can only show that particular strings are rejected", "anchors": [{"file": "x509/parser.go", "symbols": ["ParseCertificate"]}, {"file": "x509/x509.go", "symbols": ["ParseDERCRL", "ParseCertificateRequest", "ParsePKIXPublicKey"]}, {"file": "x509/pkcs7.go", "symbols": ["ParsePKCS7", "Verify"]}, {"file": "x509/pkcs8.go", "symbols": ["ParsePKCS8PrivateKey"]}, {"file": "x509/pkcs1.go", "symbols": ["ParsePKCS1PrivateKey", "ParsePKCS1PublicKey"]}, {"file": "x509/sec1.go", "symbols": ["ParseECPrivateKey"]}, {"file": "pkcs12/pkcs12.go", "symbols": ["Decode", "DecodeAll"]}]}
{"id": "C101", "title": "Random octets of an SM2 signature determine the key", "statement": "From a signature and the last 40 random octets that the signer consumed the private key follows modulo N; from two signatures of digests different modulo N made with the same 40 random octets it follows without knowing these octets, and also when the two nonces are only related by a known affine map (a counter, a linear congruential generator), unless a divisor happens to be 0. Two signers with different keys and the same random octets can compute each other's key. So no random source may repeat: the signer takes nothing from the message or key into the nonce.", "quantifier": "all keys, digests and random streams", "why_tests_cant": "an algebraic identity over all keys, digests and random streams", "anchors": [{"file": "sm2/sm2.go", "symbols": ["SignDigest", "nextk"]}]}
{"id": "C102", "title": "A digest signature does not identify the signer", "statement": "The public keys for which (r, s) is a valid signature of a digest are exactly those computed by one public formula from the points whose x-coordinate gives r; there are at least two and at most four of them. Whatever VerifyDigest accepts under one curve point it accepts, for the same digest, under another key.", "quantifier": "all digests, signatures and public keys", "why_tests_cant": "existence of another key for every signature, and a bound on the number of keys", "anchors": [{"file": "sm2/sm2.go", "symbols": ["VerifyDigest", "Verify"]}]}
{"id": "C103", "title": "An accepted RSA key with distinct prime factors works", "statement": "For every key returned by ParsePKCS1PrivateKey or ParsePKCS8PrivateKey whose factors are distinct primes, decryption undoes encryption (and signing undoes verification) for every residue. The parsers do not check primality or distinctness: keys that do not work are accepted.", "quantifier": "all octet strings that parse to an RSA key, all residues", "why_tests_cant": "a number-theoretic identity over all keys and residues", "anchors": [{"file": "x509/pkcs1.go", "symbols": ["ParsePKCS1PrivateKey"]}, {"file": "x509/pkcs8.go", "symbols": ["ParsePKCS8PrivateKey"]}]}
{"id": "C104", "title": "No panics on untrusted octets", "statement": "No octet string makes a parser of certificates, certificate lists, revocation lists, requests, PKCS#7 messages, public keys, private keys or SM2 signatures panic, and no signature check of a certificate, list or request panics, whatever its fields, key and signature are. A private key that a parser accepts can however make signing panic: the SM2 key N-1 is accepted by ParsePKCS8PrivateKey and every signature with it panics (given a usable nonce).", "quantifier": "all octet strings; all parsed objects, keys, algorithms and signatures; all random streams and digests", "why_tests_cant": "absence of a panic over all octet strings; fuzzing only samples them", "anchors": [{"file": "x509/parser.go", "symbols": ["ParseCertificate", "ParseCertificates"]}, {"file": "x509/x509.go", "symbols": ["ParseDERCRL", "ParseCRL", "ParseCertificateRequest", "CheckSignature", "CheckSignatureFrom", "CheckCRLSignature"]}, {"file": "x509/pkcs7.go", "symbols": ["ParsePKCS7"]}, {"file": "x509/pkcs8.go", "symbols": ["ParsePKCS8PrivateKey"]}, {"file": "x509/pkcs1.go", "symbols": ["ParsePKCS1PrivateKey", "ParsePKCS1PublicKey"]}, {"file": "x509/sec1.go", "symbols": ["ParseECPrivateKey"]}, {"file": "sm2/sm2.go", "symbols": ["SignDigest"]}]}
{"id": "C105", "title": "Keys that were read can be written and are read back unchanged", "statement": "Every private key returned by ParsePKCS8PrivateKey, ParseECPrivateKey or ParsePKCS1PrivateKey (RSA: with two or with pairwise coprime factors) from whatever encoding can be marshalled (to SEC 1: the ecdsa key with the same curve and numbers, since MarshalECPrivateKey takes no SM2 type), and parsing the result gives the same key. Every public key returned by ParsePKIXPublicKey, except a DSA key, which cannot be written, likewise. Hence different keys have different encodings.", "quantifier": "all octet strings that parse, in every tolerated non-canonical form; all pairs of keys", "why_tests_cant": "the parsers tolerate many encodings of the same key; normalisation must hold for all of them", "anchors": [{"file": "x509/pkcs8.go", "symbols": ["ParsePKCS8PrivateKey", "MarshalPKCS8PrivateKey"]}, {"file": "x509/pkcs1.go", "symbols": ["ParsePKCS1PrivateKey", "MarshalPKCS1PrivateKey"]}, {"file": "x509/sec1.go", "symbols": ["ParseECPrivateKey", "MarshalECPrivateKey"]}, {"file": "x509/x509.go", "symbols": ["ParsePKIXPublicKey", "MarshalPKIXPublicKey"]}]}
{"id": "C106", "title": "An SM2 message signature is bound to user id, key and message", "statement": "SM3Digest gives the same value for two triples (user id, public key, message) only if they are equal (an empty user id counting as the default one, also for user ids whose bit length wraps) or if one of two explicitly given pairs of different octet strings has the same SM3 value. A signature that is accepted under one key, on the curve or not, for two messages has digests that agree modulo N.", "quantifier": "all public keys with 256-bit coordinates, messages, user ids, signatures", "why_tests_cant": "injectivity of an encoding over all triples, and uniqueness over all pairs of messages", "anchors": [{"file": "sm2/sm2.go", "symbols": ["SM3Digest", "z", "Verify", "VerifyDigestRS"]}]}
{"id": "C107", "title": "Curve operations never leave the curve", "statement": "Multiples and sums of points on the curve (or infinity) are on the curve or infinity. For a public key on the curve verification passes only such points to crypto/elliptic, so the point checks of Go 1.19 and later change nothing; for another key these versions panic exactly when r, s and r+s are in range. Every SM2 key returned by ParsePKIXPublicKey or in a parsed certificate is on the curve and not infinity.", "quantifier": "all points, scalars, public keys, digests, signatures and parsed octet strings", "why_tests_cant": "closure of the operations over all points and scalars", "anchors": [{"file": "sm2/sm2.go", "symbols": ["VerifyDigestRS", "P256V1Curve"]}, {"file": "x509/x509.go", "symbols": ["ParsePKIXPublicKey"]}, {"file": "x509/parser.go", "symbols": ["parsePublicKey"]}]}
{"id": "C108", "title": "SM2 encryption against GB/T 32918.4", "statement": "For messages of 1 to 32 octets Encryt returns the ciphertext C1||C3||C2 of GB/T 32918.4 for its last nonce, and Decryt returns the message of every ciphertext of the standard with a non-zero key stream, if the coordinates of the shared point have no leading zero octet. If they have, the results of Encryt are not ciphertexts of the standard and Decryt reports an error for ciphertexts of the standard, unless two explicitly given different octet strings have the same SM3 value. The first octet of a ciphertext is not looked at.", "quantifier": "all keys, nonces, messages up to 32 octets, ciphertexts", "why_tests_cant": "the exception has probability 1/128 per message; conformance must hold for all nonces and keys", "anchors": [{"file": "sm2/sm2.go", "symbols": ["Encryt", "Decryt", "kdf"]}]}
{"id": "C109", "title": "Files cut short are never accepted", "statement": "No proper prefix of an accepted certificate, revocation list, request, PKCS#7 message, PFX file, public key or PKCS#1 key, and no proper prefix of what MarshalPKCS8PrivateKey and MarshalECPrivateKey return, is accepted by any parser, of its own kind or of another. If the process dies while SM2P12Encrypt writes its file, SM2P12Decrypt returns the key and certificate when the file is complete and an error otherwise, at every crash point. Decode and DecodeAll report an error for a cut file with every password; ToPEM returns no blocks and no error.", "quantifier": "all accepted or written octet strings, all prefixes (crash points), all passwords", "why_tests_cant": "all crash points of all files and all parsers", "anchors": [{"file": "pkcs12/pkcs12.go", "symbols": ["SM2P12Encrypt", "SM2P12Decrypt", "Decode", "DecodeAll", "ToPEM", "Encode"]}, {"file": "x509/pkcs8.go", "symbols": ["ParsePKCS8PrivateKey", "MarshalPKCS8PrivateKey"]}, {"file": "x509/sec1.go", "symbols": ["ParseECPrivateKey"]}, {"file": "x509/parser.go", "symbols": ["ParseCertificate"]}, {"file": "x509/x509.go", "symbols": ["ParseDERCRL", "ParseCertificateRequest", "ParsePKIXPublicKey"]}, {"file": "x509/pkcs7.go", "symbols": ["ParsePKCS7"]}]}
{"id": "C110", "title": "Exactly which octets the writers of keys return", "statement": "MarshalECPrivateKey, MarshalPKCS1PrivateKey, MarshalPKCS1PublicKey, MarshalPKCS8PrivateKey and MarshalPKIXPublicKey return, for every key, exactly the DER of the structure of the standards (RFC 5915 with the public key included and the private key padded to the length of the order; RFC 8017 with d mod (p-1), d mod (q-1), the inverse of q modulo p and the further primes; RFC 5208 version 0; RFC 5280) and nothing else; they return an error or panic for every key for which there is none. The inner EC structure of a PKCS#8 key names no curve for an ecdsa key and sm2p256v1 for an sm2 key.", "quantifier": "all keys and octet strings (structures below 2^31 octets; RSA private keys that are valid with pairwise coprime factors)", "why_tests_cant": "all keys of all curves and sizes", "anchors": [{"file": "x509/pkcs1.go", "symbols": ["MarshalPKCS1PrivateKey", "MarshalPKCS1PublicKey"]}, {"file": "x509/sec1.go", "symbols": ["MarshalECPrivateKey", "marshalECPrivateKeyWithOID", "marshalSM2PrivateKeyWithOID"]}, {"file": "x509/pkcs8.go", "symbols": ["MarshalPKCS8PrivateKey"]}, {"file": "x509/x509.go", "symbols": ["MarshalPKIXPublicKey", "marshalPublicKey"]}]}
{"id": "C111", "title": "Exactly which octets pkcs12.Encode returns", "statement": "For every private key, leaf certificate, list of further certificates, password and random source, Encode returns octets w without error exactly if the password lies in the Basic Multilingual Plane, the random source yields three 8-octet salts (used for the key, for the certificates and for the MAC in this order), the key has a PKCS#8 encoding, and w is the PFX of version 3 determined by them to the last octet: the encrypted safe with the leaf (with a localKeyID attribute holding the SHA-1 of the leaf) followed by the further certificates in order (with an empty attribute set), under RC2-40 with 2048 iterations; the safe with the one key bag with the same localKeyID, its PKCS#8 key under 3-key Triple DES with 2048 iterations; the MAC over the authenticated safe with one iteration (count left out), SHA-1 without parameters.", "quantifier": "all primitives, keys, certificates, passwords, random sources and results below 2^31 octets (RSA keys valid with coprime factors)", "why_tests_cant": "all arguments and random sources; both directions, also when an error must be returned", "anchors": [{"file": "pkcs12/pkcs12.go", "symbols": ["Encode", "makeCertBag", "makeSafeContents"]}, {"file": "pkcs12/safebags.go", "symbols": ["encodePkcs8ShroudedKeyBag", "encodeCertBag"]}, {"file": "pkcs12/mac.go", "symbols": ["computeMac"]}, {"file": "pkcs12/crypto.go", "symbols": ["pbEncrypt"]}]}
{"id": "C112", "title": "Exactly which octets NewSignedData and NewSignedDataCallBack return", "statement": "For every certificate, content, key (or callback), random source and time, NewSignedData and NewSignedDataCallBack return octets w without error exactly if the key is an SM2 key (or the callback succeeds), the signature over the DER SET of the signed attributes (content type data, signing time, SM3 digest of the content, in this order) succeeds, and w is the message determined by them to the last octet: content info of type signedData, version 1, the one digest algorithm SM3 without parameters, the content as an OCTET STRING of type data, the certificate, an empty list of CRLs, and one signer of version 1 with the issuer and serial number of the certificate, SM3, the same signed attributes under [0], SM2 with SM3, and the signature. The time is UTCTime in the zone of the clock for the years 1950 to 2049, otherwise GeneralizedTime. No unsigned or half-filled message is ever returned although the error of the signer is dropped.", "quantifier": "all certificates with an issuer, contents, keys, callbacks, random sources, times up to the year 9999 and results below 2^31 octets", "why_tests_cant": "all contents, times and callbacks; both directions, also when an error must be returned", "anchors": [{"file": "x509/pkcs7.go", "symbols": ["NewSignedData", "NewSignedDataCallBack", "getSignerInfoWithAttr", "getSignerInfoWithAttrCallback", "ForMarshaling", "marshalCertificates"]}]}
{"id": "C113", "title": "Exactly which octets CreateCertificate returns", "statement": "For every template, parent, public key, signer, registry of hashes and verifiers, CreateCertificate returns w without error exactly if its requirements on the arguments are met and w is the certificate they determine to the last octet: version 3, the serial number, the signature algorithm chosen for the key (twice, with the parameters its row of the table asks for), issuer and subject (the raw octets if present, otherwise the names in the fixed order with PrintableString or UTF8String as their text allows), validity in UTC as UTCTime or GeneralizedTime, the SubjectPublicKeyInfo, and under [3] exactly the extensions the template asks for, each left out if ExtraExtensions has one with the same identifier, in the fixed order key usage, extended key usage, basic constraints, subject key id, authority key id, authority information access, subject alternative names (critical iff the subject is empty), policies, name constraints, CRL distribution points, then the extra ones; each value octet for octet; finally the signature of the signer over the digest of the inner part, which the self check accepts.", "quantifier": "all templates with times of the calendar and object identifiers whose arcs fit 31 bits, parents, keys, signers, registries, and results below 2^31 octets", "why_tests_cant": "all templates and signers; both directions: also the templates for which an error must be returned", "anchors": [{"file": "x509/x509.go", "symbols": ["CreateCertificate", "buildCertExtensions", "marshalKeyUsage", "marshalExtKeyUsage", "marshalBasicConstraints", "marshalCertificatePolicies", "signingParamsForPublicKey", "subjectBytes", "marshalSANs", "marshalPublicKey"]}]}
{"id": "C114", "title": "Exactly which octets CreateRevocationList and CreateCRL return", "statement": "For every template, issuer, signer and registry CreateRevocationList, and for every list of entries and times Certificate.CreateCRL, returns w without error exactly if its requirements are met and w is the list they determine to the last octet: version 2, the signature algorithm, the issuer name, this update and, if not the zero time, next update in UTC, the entries in order with times in UTC (if there are none, no field from CreateRevocationList, and an empty one from CreateCRL), and under [0] the authority key identifier, the CRL number and the extra extensions (for CreateCRL the authority key identifier only, and only if the issuer has a subject key id), the algorithm again and the signature over the digest of the inner part.", "quantifier": "all templates with times of the calendar and object identifiers whose arcs fit 31 bits, issuers, signers, registries, and results below 2^31 octets", "why_tests_cant": "all templates and signers; both directions", "anchors": [{"file": "x509/x509.go", "symbols": ["CreateRevocationList", "CreateCRL"]}]}
{"id": "C115", "title": "Exactly which octets CreateCertificateRequest returns", "statement": "For every template, signer and registry CreateCertificateRequest returns w without error exactly if its requirements on the signer are met and w is the request they determine to the last octet: version 0, the subject, the SubjectPublicKeyInfo of the signer, and under [0] the attributes: those of the template with their values in the order of DER sets; the extensions asked for (the alternative names unless ExtraExtensions has them, then ExtraExtensions) go, without their critical flag and without those the attribute already has, into the first value of the first attribute of the template that asks for extensions, otherwise into one attribute of their own with the flags kept; then the algorithm and the signature over the digest of the inner part, made with plain hash options even for PSS.", "quantifier": "all templates with object identifiers whose arcs fit 31 bits and extensions below 2^31 octets, signers, registries, and results below 2^31 octets", "why_tests_cant": "all templates and signers; both directions", "anchors": [{"file": "x509/x509.go", "symbols": ["CreateCertificateRequest", "buildCSRExtensions", "newRawAttributes"]}]}
{"id": "C116", "title": "Chains of certificates of any length", "statement": "A hierarchy of CAs of any depth made with the library (a self-signed CA, then CAs each of which got its certificate from the one before through CreateCertificate and ParseCertificate) verifies: every certificate is accepted by CheckSignatureFrom of its issuer, its issuer name is the subject of the issuer octet for octet, its authority key identifier is the subject key identifier of the issuer, and the root verifies under itself; likewise every certificate the last CA issues. Conversely, whoever verifies a chain of any length link by link with CheckSignatureFrom up to a root gets a leaf that was really issued, unless some link holds a signature that the primitive accepts under the key of a certificate that was really issued on octets its owner never signed. The result of a link depends on nothing but the algorithm, signed octets and signature of the certificate and the version, CA flags, key usage and key of the parent: names, validity, path lengths, name constraints and unhandled critical extensions never matter.", "quantifier": "all hierarchies and chains of any depth, templates with readable fields, signers, registries and verifiers", "why_tests_cant": "chains of unbounded length; every possible forgery; independence of fields is a relation between two runs", "anchors": [{"file": "x509/x509.go", "symbols": ["CheckSignatureFrom", "CreateCertificate"]}, {"file": "x509/parser.go", "symbols": ["ParseCertificate"]}]}
{"id": "C117", "title": "Exactly when the writers crash, fail or succeed", "statement": "MarshalECPrivateKey, MarshalPKCS8PrivateKey, MarshalPKCS1PrivateKey and MarshalPKIXPublicKey panic exactly for keys that have no place in the format (an RSA key with fewer than two primes or a prime 1, an EC key of a known curve with a coordinate or private number longer than the field, an Ed25519 key shorter than 32 octets), return an error exactly for unknown curves and key types, and return octets otherwise; MarshalPKCS1PrivateKey has no error, and an RSA key without PKCS#1 form silently becomes an empty string. pkcs12.Encode panics exactly for such keys (with an acceptable password), whatever the certificates and random source. NewSignedData panics exactly for an SM2 key with D = -1 modulo the group order and a usable nonce in the random source; NewSignedDataCallBack never panics by itself.", "quantifier": "all keys (RSA keys with positive primes), certificates, passwords, random sources, contents and times", "why_tests_cant": "the statement is about every key value, including every malformed one, and says there is no other crash", "anchors": [{"file": "x509/pkcs1.go", "symbols": ["MarshalPKCS1PrivateKey"]}, {"file": "x509/sec1.go", "symbols": ["MarshalECPrivateKey", "marshalECPrivateKeyWithOID"]}, {"file": "x509/pkcs8.go", "symbols": ["MarshalPKCS8PrivateKey"]}, {"file": "x509/x509.go", "symbols": ["MarshalPKIXPublicKey", "marshalPublicKey"]}, {"file": "pkcs12/pkcs12.go", "symbols": ["Encode"]}, {"file": "x509/pkcs7.go", "symbols": ["NewSignedData", "NewSignedDataCallBack"]}]}
{"id": "C118", "title": "Signatures of one digest that share their first number", "statement": "For every public key on the curve other than -G, digest and r, VerifyDigestRS accepts at most four numbers s. Whenever it accepts (r, s) it also accepts (r, s') for the mirrored number s' with (1+d)(s+s') + 2rd = 0 modulo N (if s' and r+s' are not zero), so the owner of the key always has a second signature. Unless (r - e) mod N lies below P - N, there is no third, and whoever shows two different accepted numbers for the same digest and r has given away the private key: d = -(s+s')/(s+s'+2r). For the public key -G, which nothing rejects, s does not matter at all: there is a digest for which (1, s) is accepted for every s.", "quantifier": "all keys on the curve, digests, r and s", "why_tests_cant": "a bound on the number of accepted values out of 2^256, for every key", "anchors": [{"file": "sm2/sm2.go", "symbols": ["VerifyDigestRS", "SignDigestRS"]}]}
{"id": "C119", "title": "A parsed certificate is as good a template as the one it was made from", "statement": "For every template, parent, subject key and signer for which CreateCertificate succeeds (readable template, key usage below 512): the certificate read back by ParseCertificate, used as a template with its own public key and the same issuer (or the parsed certificate of the issuer, or itself if self-issued), does exactly what the original template does, whatever serial number, validity, algorithm and extra extensions both are given. Hence renewing with nothing changed (extra extensions put back, deterministic signer) reproduces the same octets, and a self-signed certificate renewed from itself is a fixed point. A key usage above bit 8 is written but lost when read, so there the renewed certificate differs.", "quantifier": "all templates, parents, keys, signers, serial numbers, validity periods, algorithms and extra extensions", "why_tests_cant": "equality of two issuing runs for every template and every change of it", "anchors": [{"file": "x509/x509.go", "symbols": ["CreateCertificate", "buildCertExtensions"]}, {"file": "x509/parser.go", "symbols": ["ParseCertificate", "processExtensions"]}]}
{"id": "C120", "title": "From a request to a certificate", "statement": "For every request accepted by ParseCertificateRequest whose subject consists of string values: a CA that copies subject, names and key of the request into its template and calls CreateCertificate gets a certificate that ParseCertificate reads, with the subject of the request octet for octet and field by field, its DNS names, mail addresses, URIs, IP addresses (in 4-byte form where possible) and its key; serial number, validity, CA flag and usages are the CA's, whatever the request asked for; if the CA certificate is a CA certificate with the signer's key the new certificate passes CheckSignatureFrom. From CreateCertificateRequest on: the request also verifies, and key, names and subject of the applicant's template arrive in the certificate. A subject with a non-string value is read in requests and put into certificates, but ParseCertificate rejects the certificate.", "quantifier": "all requests, CA templates, CA certificates and keys", "why_tests_cant": "end-to-end statement over every request and every template", "anchors": [{"file": "x509/x509.go", "symbols": ["CreateCertificateRequest", "ParseCertificateRequest", "CreateCertificate", "CheckSignatureFrom"]}, {"file": "x509/parser.go", "symbols": ["ParseCertificate"]}]}
{"id": "C121", "title": "Revocation lists of a CA fit the certificates it issued", "statement": "For every hierarchy of certificates made with CreateCertificate, every certificate c its newest CA has issued, and every list that CA makes with CreateRevocationList or CreateCRL: ParseDERCRL reads the list; the entry found for every serial number is the one the CA wrote, so c is revoked by the list exactly if the CA listed its serial number; the authority key identifier of the list is the subject key identifier of the CA and, unless c has the subject of the CA, the authority key identifier of c; the list passes CheckCRLSignature under the CA certificate if the key makes verifying signatures. The issuer of the list is that of c exactly if the subject of the CA is written as its parsed fields are; this is so when the CA certificate was made from a name without raw octets and extra names, and can fail otherwise (case shown).", "quantifier": "all hierarchies, issued certificates, revocation lists, times and serial numbers", "why_tests_cant": "relation between two artefacts for every template, list and serial number", "anchors": [{"file": "x509/x509.go", "symbols": ["CreateRevocationList", "CreateCRL", "CheckCRLSignature", "CreateCertificate"]}, {"file": "x509/parser.go", "symbols": ["ParseCertificate"]}]}
{"id": "C122", "title": "What a verified signed message with a verified chain proves", "statement": "NewSignedData asks its signer only for signatures of DER sets of attributes that hold the SM3 digest of the data. If the owners of keys sign nothing but such attributes for data from a set D, then for every octet string that ParsePKCS7 reads and Verify accepts, and every signer of it with its certificate: the content is in D, or it collides under SM3 with a member of D, or the signer has no attributes and the content is itself the attributes of data in D (the confusion of C60), or the signature is a forgery. If moreover the certificate of the only signer is the beginning of a chain that CheckSignatureFrom accepts link by link up to a root, the certificate is authentic, or some signature in chain or message is forged under the key of an authentic certificate. Conversely a message made with a certificate issued in a hierarchy is accepted with this certificate as only signer and a chain up to the root.", "quantifier": "all octet strings, chains of certificates, roots, sets of signed data and verifiers", "why_tests_cant": "security reduction over all adversarial messages and chains", "anchors": [{"file": "x509/pkcs7.go", "symbols": ["NewSignedData", "NewSignedDataCallBack", "ParsePKCS7", "Verify", "GetOnlySigner"]}, {"file": "x509/x509.go", "symbols": ["CheckSignatureFrom"]}]}
{"id": "C123", "title": "What the digests of SM3 give away, and what a collision takes", "statement": "From the digest Sum returns for a message and the length of the message, without the message, the digest of the message followed by its padding and any continuation can be computed; so a digest of secret and message does not authenticate the message. Two messages of one length with the same digest keep the same digest under every continuation of their padded forms. Conversely, two different messages of less than 2^61 bytes with the same digest contain a collision of the compression function, among the blocks of the two padded messages.", "quantifier": "all messages, secrets, continuations and colliding pairs", "why_tests_cant": "relations between digests of all messages; reduction over all collisions", "anchors": [{"file": "sm3/sm3.go", "symbols": ["Sum", "Write", "checkSum"]}]}
{"id": "C124", "title": "SM2 ciphertexts: length, repeated or known randomness, modification", "statement": "A ciphertext is 97 octets longer than the message. Two messages of one length encrypted for one key from the same random octets give ciphertexts with the same C1 whose C2 differ exactly as the messages do. Who knows the random octets reads the message from ciphertext and public key. A ciphertext whose C3 and C2 are replaced (C1 kept) by octets of the same length is decrypted to the message changed in the same places as C2, exactly if C3 is the digest of x2, this message and y2; so a ciphertext in which only C2 is changed is accepted only with a collision of SM3 on explicit strings.", "quantifier": "all keys, messages, random octets and modifications", "why_tests_cant": "all modifications of all ciphertexts under all keys", "anchors": [{"file": "sm2/sm2.go", "symbols": ["Encryt", "Decryt", "kdf"]}]}
{"id": "C125", "title": "Changed or replaced PKCS#12 files", "statement": "Octets that are a PFX determine what the MAC is computed over, and the MAC. DecodeAll, Decode and ToPEM return the same, error or not, for two files with right MACs over the same authenticated safe. Let a set of files be made by Encode with a password: whatever octets DecodeAll accepts with this password, it returns the key and the certificates put into one of these files, or the octets hold a right MAC under the password over an authenticated safe that occurs in none of the files (a forgery), or the password is empty and they hold a right MAC for the absent password.", "quantifier": "all octet strings, passwords, sets of files and primitives", "why_tests_cant": "all ways of changing a file", "anchors": [{"file": "pkcs12/pkcs12.go", "symbols": ["Encode", "DecodeAll", "Decode", "ToPEM", "getSafeContents"]}, {"file": "pkcs12/mac.go", "symbols": ["verifyMac"]}]}
{"id": "C126", "title": "SM3 hash objects and the memory of the caller", "statement": "For every program that uses any number of hash objects from New and changes its own memory between the calls as it likes: the digest Sum appends is that of the octets the slices held when they were passed to Write of this object since its last Reset; later changes of that memory and calls on other objects have no influence. Sum(in) never fails; its result holds what in held, then the digest. If in has room for 32 octets behind it, the result shares its memory, exactly those 32 octets are overwritten, and a second Sum(in) replaces the first result; otherwise the result is in new memory and no old memory changes. No call changes other memory.", "quantifier": "all programs (sequences of calls on any number of objects, stores and allocations), memories and slices, with any aliasing", "why_tests_cant": "all interleavings of calls and stores, all overlaps of slices", "anchors": [{"file": "sm3/sm3.go", "symbols": ["New", "Write", "Sum", "Reset", "checkSum"]}]}
{"id": "C127", "title": "RC2 blocks in memory: any overlap of source and destination", "statement": "Encrypt(dst, src) and Decrypt(dst, src) of the RC2 cipher, however the slices overlap: if both have 8 octets, the first 8 octets of dst become the result for the first 8 octets src had before the call and no other octet of memory changes; so a block can be encrypted and decrypted in place, after which memory is as before. With a short src the call panics and writes nothing; with a short dst it panics after the pairs of octets of the result that fit have been written.", "quantifier": "all keys, memories and pairs of slices", "why_tests_cant": "all positions and overlaps of slices", "anchors": [{"file": "pkcs12/rc2.go", "symbols": ["Encrypt", "Decrypt", "New"]}]}
{"id": "C128", "title": "What parsing a certificate writes to the standard output", "statement": "Parsing octets as a certificate writes at most one line to the standard output, whether they are accepted or not, and the line consists of digits and dots only: no octets chosen by the sender of a certificate can forge lines or control characters in a log. An accepted certificate writes exactly one line, which depends only on its key: the object identifier of the curve for SM2 and ECDSA keys, an empty line for RSA, DSA and Ed25519 keys.", "quantifier": "all octet strings", "why_tests_cant": "all inputs, malformed ones included", "anchors": [{"file": "x509/parser.go", "symbols": ["parseCertificate", "ParseCertificate"]}]}
{"id": "C129", "title": "A parsed certificate and the memory it was parsed from", "statement": "ParseCertificate keeps references to its argument: Raw is the argument itself; RawTBSCertificate, RawIssuer, RawSubject, RawSubjectPublicKeyInfo, the values of the extensions, an Ed25519 key and (unless bits had to be shifted) the signature are pieces of it, laid out in order, with capacity to the end of that of the argument. While nobody writes to the argument the certificate does not change, whatever else happens in memory. If the buffer is used again for another certificate of the same layout, the old object keeps the old names, validity, serial number and rights, but is Equal to the new one and its CheckSignatureFrom is that of the new one. append to RawTBSCertificate overwrites the signature in Raw.", "quantifier": "all memories, slices, certificates, later contents of the buffer and parents", "why_tests_cant": "all layouts of certificates and all later writes to the buffer", "anchors": [{"file": "x509/parser.go", "symbols": ["parseCertificate", "ParseCertificate", "parseExtension", "parsePublicKey"]}, {"file": "x509/x509.go", "symbols": ["CheckSignatureFrom", "Equal"]}]}
{"id": "C130", "title": "Sizes of SM2 signatures, exact octets of SM2 keys", "statement": "Every signature that Sign or SignDigest returns, and every one that Verify or VerifyDigest accepts, has 8 to 72 octets. For every SM2 key whose numbers fit in 32 octets (every generated one): MarshalPKIXPublicKey returns 91 octets, 27 fixed ones and the coordinates; MarshalECPrivateKey 121 octets and MarshalPKCS8PrivateKey 150, in which only the 32 octets of D and the 64 of the point vary, at fixed places.", "quantifier": "all keys, messages, user ids, digests, random streams and signatures", "why_tests_cant": "short numbers and leading zeros are too rare for tests", "anchors": [{"file": "sm2/sm2.go", "symbols": ["Sign", "SignDigest", "Verify", "VerifyDigest"]}, {"file": "x509/x509.go", "symbols": ["MarshalPKIXPublicKey"]}, {"file": "x509/sec1.go", "symbols": ["MarshalECPrivateKey"]}, {"file": "x509/pkcs8.go", "symbols": ["MarshalPKCS8PrivateKey"]}]}
{"id": "C131", "title": "Creating requests and revocation lists leaves the caller's template as it was", "statement": "CreateCertificateRequest, CreateCRL and CreateRevocationList return what they would for the values of the template's attributes (entries) at the time of the call, even if the slices of the template share memory, and change no array the caller has; so a template can be used again and gives the same result.", "quantifier": "all templates, memories, overlapping slices, keys and issuers", "why_tests_cant": "aliasing of slices shows only for particular memory layouts and later calls", "anchors": [{"file": "x509/x509.go", "symbols": ["CreateCertificateRequest", "CreateCRL", "CreateRevocationList"]}]}
{"id": "C132", "title": "RSA signatures: what is accepted, what is made, and when making one crashes", "statement": "For RSA keys, checking a signature succeeds exactly for the PKCS #1 v1.5 or PSS signatures of RFC 8017 of the message under the algorithm (numbers not below the modulus are accepted too, so s and s + n are both signatures). Every signature made by a key that the parsers accept is valid. A key with distinct primes makes, for each digest whose encoding fits the modulus, one v1.5 signature, the only accepted one below the modulus; certificates signed with it are determined by template and keys. A v1.5 signature belongs to one hash and digest. Requests under v1.5 algorithms and revocation lists under all algorithms verify once parsed; a request under a PSS algorithm carries a v1.5 signature and does not verify unless its digest ends in BC. Signing with an accepted key crashes exactly if two of its factors have a common divisor.", "quantifier": "all RSA keys, messages, digests, signatures, blinding factors, salts, templates", "why_tests_cant": "every modulus, message and signature string; uniqueness and rejection of all others is not testable", "anchors": [{"file": "x509/x509.go", "symbols": ["checkSignature", "CreateCertificate", "CreateCertificateRequest", "CreateRevocationList", "CreateCRL"]}, {"file": "x509/pkcs1.go", "symbols": ["ParsePKCS1PrivateKey"]}]}
{"id": "C133", "title": "Which private keys can issue documents", "statement": "Only RSA keys, and ECDSA keys on NIST curves, issue certificates: with an SM2 or an Ed25519 private key CreateCertificate returns an error for every template, parent and subject key. A request made with a key verifies once parsed only if the key is RSA or ECDSA on a NIST curve, and so do revocation lists, against any certificate; with SM2 keys none is made, since their Sign method does not have the type that crypto.Signer requires. An SM2 key in a wrapper that provides the interface gets a certificate only if the value it signs for the digest it is given equals, modulo the order of the group, SM3 of the prefix Z and the certificate part; in particular with the wrappers around SignDigest and Sign only if SM3(tbs), or SM3(Z || SM3(tbs)), equals SM3(Z || tbs) modulo the order.", "quantifier": "all private keys, templates, parents, subject keys, wrappers, random streams", "why_tests_cant": "a test shows that one template fails, not that no template succeeds", "anchors": [{"file": "x509/x509.go", "symbols": ["CreateCertificate", "CreateCRL", "CreateCertificateRequest", "CreateRevocationList"]}, {"file": "sm2/sm2.go", "symbols": ["Sign", "SignDigest"]}]}
{"id": "C134", "title": "Parsed requests and revocation lists and the memory they were parsed from", "statement": "ParseCertificateRequest keeps references to its argument: Raw is the argument itself, RawTBSCertificateRequest a piece of it, RawSubject and RawSubjectPublicKeyInfo adjacent pieces of that, and an Ed25519 key and (unless bits had to be shifted) the signature are pieces too. The list that ParseDERCRL returns keeps the signed part, the parameters of the algorithm and the signature as pieces of the argument, in this order. While nobody writes to the argument the objects do not change. If the buffer is used again for another request or list of the same layout, the old object keeps the old subject, alternative names and extensions, or the old issuer, times and entries, but the check of its signature is that of the new one: a list that shows other revocations than the signed ones passes CheckCRLSignature.", "quantifier": "all memories, slices, requests, lists, later contents of the buffer and issuers", "why_tests_cant": "all layouts of requests and lists and all later writes to the buffer", "anchors": [{"file": "x509/x509.go", "symbols": ["ParseCertificateRequest", "parseCertificateRequest", "ParseDERCRL", "CheckSignature", "CheckCRLSignature"]}]}
{"id": "C135", "title": "The integers passed to and returned from package sm2 by reference", "statement": "No function or method of the package writes to a *big.Int that exists when it is called: not to the key, not to r and s given to VerifyRS, not to the parameters of the curve, also if arguments are the same integer, if the call fails or if it panics. So after any history of calls, mixed with assignments by the program to other integers, a key signs, decrypts, encrypts and verifies as its value at the beginning says. The two numbers of a signature, and the three of a generated key, are new integers different from each other, with the values that the random stream determines. Equal compares values. What all keys share are the parameters of the curve, which Params hands out: who sets the order of the group to zero through one key stops every key from signing.", "quantifier": "all memories, keys, arguments (aliased or not), random streams and histories of calls", "why_tests_cant": "all histories of calls and all ways in which arguments can coincide", "anchors": [{"file": "sm2/sm2.go", "symbols": ["GenerateKey", "SignDigestRS", "SignRS", "Sign", "SignDigest", "VerifyRS", "VerifyDigestRS", "Encryt", "Decryt", "nextk", "MarshalSign", "UnmarshalSign", "Equal", "Params"]}]}
{"id": "C136", "title": "Goroutines that use package sm2 at the same time", "statement": "Any number of goroutines may call the functions of the package at the same time with the same keys and signatures, one call after the other, each depending on the results of the earlier ones, and may assign to integers they got from their own calls. However their accesses to integers are interleaved: the shared integers (keys, signatures, variables of the package, parameters of the curve) keep their values at every moment; no goroutine is ever about to assign to an integer that another one can access (no data race); each goroutine gets from its calls exactly what it would get alone, so a shared key signs, verifies, encrypts and decrypts as its value determines; and each ends after as many steps of its own as when it is alone.", "quantifier": "all numbers of goroutines, programs of calls, memories, random streams and schedules", "why_tests_cant": "all interleavings", "anchors": [{"file": "sm2/sm2.go", "symbols": ["GenerateKey", "SignDigestRS", "SignRS", "Sign", "SignDigest", "Verify", "VerifyRS", "VerifyDigest", "VerifyDigestRS", "Encryt", "Decryt", "nextk", "MarshalSign", "UnmarshalSign", "Equal", "Params"]}]}
{"id": "C137", "title": "Revocation lists in PEM", "statement": "ParseCRL reads a text that begins with a BEGIN line for \"X509 CRL\", goes on with perhaps header lines and base64 data in any layout (line lengths, CR LF or LF, blanks), and has an END line for \"X509 CRL\", as the octets the data stand for, whatever follows; so a list that CreateRevocationList made, written in PEM in any such way (for example by pem.EncodeToMemory), is read back with its entries and verifies. A list in DER is read as it is. Nothing else is accepted: not white space or comments before the BEGIN line, nor another label; what is accepted is a list in DER, or contains one in PEM and begins with \"-----BEGIN X509 CRL\". A text has at most one meaning.", "quantifier": "all byte strings given to ParseCRL, all layouts of the PEM text, all lists", "why_tests_cant": "unbounded texts and layouts; ParseCRL falls back to DER silently", "anchors": [{"file": "x509/x509.go", "symbols": ["ParseCRL", "ParseDERCRL", "pemCRLPrefix", "pemType", "CreateRevocationList"]}]}
{"id": "C138", "title": "ECDSA keys: signatures, certificates, requests and revocation lists", "statement": "With an ECDSA public key whose point is on its curve, CheckSignature accepts exactly the DER encodings of ECDSA signatures (FIPS 186-4, on the group of the curve) of the hash of the octets, under one of the five elliptic curve algorithms (SM2WithSM3 among them: then plain ECDSA with SM3). The signer of a key pair returns exactly the signature that the first suitable number of its random stream gives, never crashes, and fails only if there is none; what it returns verifies, for every digest. So every certificate, request and revocation list made with an ECDSA key pair passes its check once parsed, under every algorithm, and the octets of the certificate are determined by template, parent, keys and stream. Signatures are not unique: beside (r, s) the encoding of (r, n-s) is accepted too.", "quantifier": "all ECDSA keys on P-224, P-256, P-384, P-521, all octets, digests of any length, random streams, templates", "why_tests_cant": "all keys, messages and nonces; rests on the group law of the curves and the primality of their orders", "anchors": [{"file": "x509/x509.go", "symbols": ["checkSignature", "CreateCertificate", "CreateCertificateRequest", "CreateRevocationList", "CreateCRL", "signingParamsForPublicKey"]}]}
{"id": "C139", "title": "SM2 functions with an arbitrary io.Reader", "statement": "GenerateKey, Sign, SignRS, SignDigest, SignDigestRS and Encryt depend on their reader only through the octets it delivers, in order: short reads, empty reads and errors that come with the last octets make no difference. A call that returns has the outcome the other properties give for the octets delivered; a call that returns an error returns the error of the reader (io.ErrUnexpectedEOF for an io.EOF inside a number). If the reader delivers enough, the call returns. A reader that returns neither octets nor an error for ever makes every call hang, and Encryt of the empty message hangs with every reader that does not fail.", "quantifier": "all io.Readers (any state machine that keeps to 0 <= n <= len(p)), states, keys, messages, digests", "why_tests_cant": "all readers: chunkings, errors and histories; and calls that do not return", "anchors": [{"file": "sm2/sm2.go", "symbols": ["GenerateKey", "nextk", "Sign", "SignRS", "SignDigest", "SignDigestRS", "Encryt"]}]}
{"id": "C140", "title": "A parsed PKCS#7 message and the memory it was parsed from", "statement": "The message that ParsePKCS7 returns refers to the octets it was given instead of copying them: Content (unless empty or given as a constructed string), the raw parts of the certificates and revocation lists, the issuers of the signers and the values of their attributes are pieces of the input, the content before all the others. While nobody writes to the input the message and the result of Verify stay what they are. Writing over Content changes no certificate, list or signer; Verify then judges the new octets: if a signer has attributes and the SM3 digest is another one, a message of which Verify approved before is refused, while Content shows the new octets.", "quantifier": "all memories, all slices to parse (any array, offset, spare capacity), all messages, all later memories, all overwritten octets, registries and verifiers", "why_tests_cant": "aliasing is a property of all later writes to the buffer", "anchors": [{"file": "x509/pkcs7.go", "symbols": ["ParsePKCS7", "parseSignedData", "rawCertificates.Parse", "PKCS7.Verify", "verifySignature", "PKCS7.GetOnlySigner"]}, {"file": "x509/parser.go", "symbols": ["ParseCertificates"]}]}
{"id": "C141", "title": "Writing one RSA key from several goroutines", "statement": "MarshalPKCS1PrivateKey (and so MarshalPKCS8PrivateKey and pkcs12.Encode, which call it) fills the Precomputed part of the key it is given. If this has been done, as for each key that ParsePKCS1PrivateKey or ParsePKCS8PrivateKey returned or that has been written once, any number of goroutines may write the key at the same time: in each schedule each of them ends, gets the right octets and the key stays as it is. A key made by hand may not be shared before that: for each valid key with two primes there is a schedule in which two goroutines both return a wrong first exponent, which then stays in the key and in all files written later; others return files without CRT values, crash (division by zero), or, with three primes, return nothing or a file without the third prime. Whatever the schedule, no goroutine returns a file of another key, and with two primes each file parses to the key. Precomputed values that are there are never checked or corrected, even if the other fields have changed.", "quantifier": "all RSA keys, all contents of the Precomputed part, any number of goroutines and calls, all schedules", "why_tests_cant": "a property of all interleavings; the race detector and tests see a few", "anchors": [{"file": "x509/pkcs1.go", "symbols": ["MarshalPKCS1PrivateKey", "ParsePKCS1PrivateKey", "pkcs1PrivateKey", "pkcs1AdditionalRSAPrime"]}, {"file": "x509/pkcs8.go", "symbols": ["MarshalPKCS8PrivateKey"]}, {"file": "pkcs12/pkcs12.go", "symbols": ["Encode"]}]}
{"id": "C142", "title": "How often the random choices go wrong", "statement": "With a random reader that delivers independent uniform octets: GenerateKey picks every D in [0, N-1] with exactly the same probability, returns one of its two unusable keys (D = 0, D = N-1) with probability at most 2^-254 and uses up a finite stream of n candidates without result for exactly (2^256-N)^n of the streams. The nonce of an SM2 signature or encryption is within 2^-64 of the uniform distribution on [1, N-1], for every set of nonces. A signature made by Sign or SignDigest for a key pair is rejected by Verify or VerifyDigest with probability at most n 2^-254 for n attempts; with one attempt SignDigest returns every valid signature equally often (up to one of about 2^64 random strings) and nothing else; no signature and no ciphertext is produced with probability above n 2^-255; among n nonces two are equal with probability at most n^2 2^-255. For messages of at most 32 octets or a multiple of 32 octets Encryt panics with probability at most n/51.", "quantifier": "all keys, digests, messages, identifiers, all numbers n of attempts, all signatures and ciphertexts, all sets of nonces; counting over all strings of random octets of each length", "why_tests_cant": "statements about all of the 2^320 (2^256) inputs of the random reader; the failing ones cannot be found by testing", "anchors": [{"file": "sm2/sm2.go", "symbols": ["GenerateKey", "nextk", "SignDigestRS", "Sign", "SignRS", "VerifyDigestRS", "Verify", "Encryt"]}]}
{"id": "C143", "title": "PKCS#12 key derivation, encryption and MAC leave the caller's memory alone", "statement": "The derivation of keys, password-based encryption and decryption, and the computation and verification of the MAC of a PKCS#12 file only read the password, the salt, the message, the stored digest and the data: however much room append leaves behind a slice, no array that existed before the call is changed, and the result lies in new memory and has the value that the functions have on plain octet strings. In any sequence of such calls with one password, as in opening or writing a file, every call gives the value for the original arguments, earlier results stay as they are, and no two results share memory.", "quantifier": "all memories, all slices of it (overlapping or not, with any capacity behind them), all hash functions, iteration counts, identifiers and sizes, all growth policies of append, all sequences of calls", "why_tests_cant": "whether append writes behind a slice depends on capacities chosen by the runtime; a test sees one layout and one order of calls", "anchors": [{"file": "pkcs12/pbkdf.go", "symbols": ["pbkdf", "fillWithRepeats", "sha1Sum"]}, {"file": "pkcs12/crypto.go", "symbols": ["pbeCipherFor", "pbDecrypt", "pbEncrypt"]}, {"file": "pkcs12/mac.go", "symbols": ["verifyMac", "computeMac"]}]}
{"id": "C144", "title": "How many hashes a PKCS#12 file costs, and how few a wrong password costs", "statement": "Counted in calls of SHA-1: opening a file costs at least the iteration count of its MAC and two more, whatever the password; a wrong password costs exactly that (a wrong empty one twice that); setting up a Triple-DES or RC2 cipher costs three or two times the iteration count in its parameters, before the encrypted octets are looked at. Nothing limits these counts: for every n below 2^63 a file of at most 49 octets makes DecodeAll, Decode and ToPEM hash more than n times with every password. Encode costs exactly 10244 hashes and opening its file with its password 10243, but rejecting any other password takes 3, because Encode makes the MAC with iteration count 1: the 2048 rounds of the ciphers do not slow down guessing.", "quantifier": "all files, passwords, keys, certificates, iteration counts, hash functions and block ciphers; for the small files all n with 1 <= n < 2^63", "why_tests_cant": "a test cannot run 2^63 hashes, and a count for some files says nothing about all files; the counts are exact statements about every execution", "anchors": [{"file": "pkcs12/pbkdf.go", "symbols": ["pbkdf"]}, {"file": "pkcs12/mac.go", "symbols": ["verifyMac", "computeMac", "macData"]}, {"file": "pkcs12/crypto.go", "symbols": ["pbeCipherFor", "pbDecrypt", "pbEncrypt"]}, {"file": "pkcs12/pkcs12.go", "symbols": ["getSafeContents", "DecodeAll", "Decode", "ToPEM", "Encode"]}, {"file": "pkcs12/safebags.go", "symbols": ["decodePkcs8ShroudedKeyBag"]}]}
{"id": "C145", "title": "SM3 hash objects used by several goroutines", "statement": "Goroutines may use SM3 hash objects at the same time as long as none uses an object that another one writes to or resets; objects on which all only call Sum may be shared. Then, whatever the scheduler does, every call returns what it would return if the goroutine were alone: Sum the SM3 digest of the octets written to the object since the last Reset, Write all its octets; no call panics, and every goroutine comes to its end. With a lock around every call any object may be shared: Sum returns the digest of what all goroutines have written, in the order of the lock. Without a lock the condition is needed: whatever has been written to an object and for every argument whose length is not a multiple of 64, there is a schedule in which a Sum during the Write panics; and when two goroutines write to one object that has room in its buffer for either argument but not both, there is a schedule in which both Writes report success and every later Write and Sum on the object panics until Reset.", "quantifier": "all numbers of goroutines and objects, all sequences of calls (each may depend on earlier results), all histories of the objects, all schedules at the granularity of one field access", "why_tests_cant": "schedules cannot be enumerated by running, and the race needs an interruption between two particular accesses; the absence of interference must hold for every schedule", "anchors": [{"file": "sm3/sm3.go", "symbols": ["digest", "Write", "Sum", "Reset", "checkSum", "New"]}]}
{"id": "C146", "title": "The curve operations of SM2 show the secrets", "statement": "Which point doublings, additions and conversions to affine coordinates SM2 makes, in which order, depends on secrets, and an observer of nothing but this order (by timing, power or cache) can compute them without any key: from one GenerateKey the private key; from one signature every nonce that was tried, and with the signature itself the private key; from one Encryt the nonce, and with the ciphertext the message (up to 32 octets, the longest the KDF is right for); from one call of Decryt with any data that begins with a point on the curve the private key, whether or not decryption succeeds. The mere number of doublings shows the length in octets of the scalar. Verification makes the same operations for every key and digest and shows only s and r+s; Decryt with data that does not begin with a point on the curve makes none.", "quantifier": "all keys, random streams, digests, messages, ciphertexts and signatures (failed attempts included)", "why_tests_cant": "the claim is about which operations every run makes for every secret, not about results; a test sees results", "anchors": [{"file": "sm2/sm2.go", "symbols": ["GenerateKey", "SignDigestRS", "VerifyDigestRS", "Encryt", "Decryt"]}]}
{"id": "C147", "title": "What a PKCS#12 file shows without its password", "statement": "However long the password is, the certificates in a file made by Encode are protected by 40 bits only: the file determines one encrypted part, and among the 2^40 RC2 keys of five octets there is one with which that part can be decrypted, without password, salt or initialisation vector, far enough to read the leaf and every further certificate octet by octet. The SHA-1 of the leaf certificate stands in the file unencrypted, so a guess can be confirmed, and the file of somebody whose certificate is known can be recognised. If the random source yields the same salt twice, the key that opens the certificates consists of the first five octets of the Triple-DES key with which the private key is encrypted.", "quantifier": "all keys, certificates, passwords and random streams for which Encode succeeds with fewer than 2^31 octets", "why_tests_cant": "that a fixed set of 2^40 keys suffices for every password cannot be seen from finitely many files", "anchors": [{"file": "pkcs12/pkcs12.go", "symbols": ["Encode", "makeSafeContents"]}, {"file": "pkcs12/crypto.go", "symbols": ["shaWith40BitRC2CBC", "pbEncrypt"]}, {"file": "pkcs12/rc2.go", "symbols": ["New"]}]}
{"id": "C148", "title": "Which PKCS#12 passwords are one and the same", "statement": "Two passwords are the same for PKCS#12 exactly if, each followed by a NUL character and repeated to a multiple of 32 characters, they give the same characters; the key derivation cannot tell such passwords apart with any hash function, and can tell all others apart with some. Encode makes the same file with them; DecodeAll, Decode and ToPEM return the same, error or not, for every file, if none of the two is empty (the empty one also opens what the other opens). Every password of up to 15 characters has such a companion: itself, NUL, itself. Passwords without NUL characters are never the same. If two passwords that are not the same open one file, the file names two different strings with the same SHA-1.", "quantifier": "all passwords of the Basic Multilingual Plane, all files, keys, certificates, random streams, hash functions", "why_tests_cant": "equality of all results on all files, and the absence of further companions, range over infinitely many passwords", "anchors": [{"file": "pkcs12/pbkdf.go", "symbols": ["fillWithRepeats", "pbkdf"]}, {"file": "pkcs12/bmp-string.go", "symbols": ["bmpString"]}, {"file": "pkcs12/pkcs12.go", "symbols": ["Encode", "DecodeAll", "Decode", "ToPEM", "getSafeContents"]}]}
