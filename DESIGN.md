# Design: a Lean 4 model of mmdet/mcrypto

## Method
* Every Go function in scope becomes a small total computable Lean function. `[]byte` and `string` are `List UInt8`,
  `*big.Int` is `Int`/`Nat`, an error return is `Res.err` (or `none`), a run-time panic is `Res.panic`
  (index out of range, nil dereference, division by zero, explicit `panic`).
* `io.Reader` is a finite byte list followed by EOF. A terminating run over any reader consumes a finite
  prefix, so quantifying over finite lists covers every terminating run (proved for package sm2: C139).
* Go loops become structural recursion on the data consumed (reader bytes, slice length). Where a counter is needed
  for termination it is computed from the input length and shown to be large enough by the theorems about the loop
  (they speak about the result for every input; no bound appears in a statement).
* Specifications (GB/T 32905, GB/T 32918, RFC 2268, RFC 7292, X.690 DER, RFC 5280 grammar, the acceptance conditions
  of the signing functions) are in separate `*Spec.lean` files in the style of the standard and do not use the
  model's helpers.
* Property theorems are in `Verif/Props/*.lean` (namespace `MCrypto.Props`), named after the property (`C41_…`), each
  followed by a non-vacuity `example` on a concrete case.
* When the code violates a property the negation is proved on a concrete witness (`…_fails`, `…_counterexample`) and
  what does hold is a `_partial` theorem or an exact condition.
* The theorems were tested against wrong programs: every line of `seeded/LOG.jsonl` is one edit of the model and the
  theorems that stopped proving.

## Trusted base
* Lean 4.33.0's kernel, and Mathlib's definitions used in statements (`WeierstrassCurve`, `ZMod`, `Nat.Prime` in the
  curve layer; lists and finite sets elsewhere).
* Axioms: no axiom is declared in this project. Every property theorem depends on a subset of
  `propext`, `Classical.choice`, `Quot.sound`; `AXIOMS.txt` lists the axioms of each theorem as printed by
  `#print axioms`. No `native_decide`, no `bv_decide`, no compiled code in proofs; concrete computations use
  `decide +kernel` (kernel reduction).
* The correspondence between model and code: it is by reading. Every definition cites the lines it models; the citations
  were compared mechanically with the function boundaries in /repo. Some model functions were also evaluated on
  published vectors (SM3 "abc", RFC 2268 RC2, the GB/T 32918 curve order, the MAC vector of the PKCS#12 tests) as a
  sanity check; those evaluations are tests, not part of the claims.
* The following behaviour of Go 1.18 and its libraries is assumed, because it is outside /repo:
  - `golang.org/x/crypto/cryptobyte` readers and builders (`Verif/Der/Model`, `Verif/X509/Parser`): tag numbers below 31,
    definite minimal lengths up to four octets, strict INTEGER/BOOLEAN/BIT STRING/OID/GeneralizedTime.
  - `encoding/asn1` Marshal and Unmarshal for the structure types the code uses (`Verif/Asn1/Model`): a codec per Go
    type with field parameters (optional, explicit, tag, default, set, utf8 …), the 64-bit limits on INTEGER into `int`,
    base-128 identifiers, string kinds, times, RawValue/RawContent, SET OF sorting on Marshal.
  - `crypto/elliptic` (`Verif/Curve`): the Jacobian doubling, addition and double-and-add of `CurveParams` are modelled as
    they are written, and proved to give the group law for points on the curve; (0,0) stands for infinity. The NIST curves
    have their own implementations in Go; they are assumed to agree with the generic formulas.
  - `math/big`, `io.ReadFull`, `unicode/utf8`, `unicode/utf16`, `bytes`, `encoding/binary`, `sort`.
  - `crypto/x509/pkix`: `Name.ToRDNSequence`, `Name.FillFromRDNSequence` and the name fields (`Verif/X509/Name`).
  - `strconv.Itoa` as `Int` to decimal digits (`Verif/X509/Display`).
* Parameters (theorems hold for every value, or for every value with the stated laws):
  - `Prims` (pkcs12): SHA-1 with 20-byte output and Triple-DES with dec∘enc = id on 8-byte blocks; `StdPrims.lean`
    constructs the real SHA-1 and Triple-DES and proves the laws, so the hypotheses are met by the standard ones.
  - `Verifiers` (RSA, ECDSA, Ed25519 verification of the standard library; `X509/Rsa.lean` and `Ecdsa/Model.lean` define the ones for RSA and ECDSA and signers
    for RSA keys as in crypto/rsa of Go 1.18), `Registry` (hash functions registered by
    other packages), `Env` (`url.Parse`, `net.ParseIP`), `SignEnv` (SHA-1 and the two former), `Signer` (any function
    with any public key), `pem.Decode` (modelled for C137), the Ed25519 seed to public key map, the random reader.

## What is modelled
| modules | source | what |
|---|---|---|
| `Base`, `Utf` | – | bytes, big-endian numbers, `Res`, readers; UTF-8/UTF-16 as in Go |
| `Sm3/*` | sm3/sm3.go | all of it: digest state with the 64-bit length, Write, Sum, Reset |
| `Curve/*` | – | curve arithmetic of crypto/elliptic in Jacobian coordinates, proved equal to Mathlib's group law; primality of P and N (Pratt certificates), N·G = 0 |
| `Der/*` | – | cryptobyte |
| `Sm2/*` | sm2/sm2.go | all of it: keys, signing, verification, DER signatures, user id digest, KDF, Encryt, Decryt |
| `Pkcs12/*` | pkcs12/*.go | all of it: RC2, key derivation, BMP strings, PBE, MAC, safe bags, Encode, Decode, DecodeAll, ToPEM, the SM2 helpers |
| `Asn1/*` | – | encoding/asn1 |
| `X509/Curves, Keys` | x509/sec1.go, pkcs1.go, pkcs8.go, x509.go, parser.go | all private and public key formats |
| `X509/SigAlg, Cert` | x509/x509.go | hash registry, algorithm tables, PSS parameters, checkSignature, CheckSignatureFrom, signing parameters |
| `X509/Rsa` | (crypto/rsa, Go 1.18) | PKCS #1 v1.5 and PSS signing and verification, the private operation |
| `Sm2/Ints` | sm2/sm2.go | its big.Int arguments and results as references |
| `Sm2/Trace` | sm2/sm2.go | its functions with the curve operations they make |
| `Sm3/Shared` | uses of sm3/sm3.go | interleavings of the field accesses of several goroutines |
| `Sm2/Sched` | uses of sm2/sm2.go | interleavings of the accesses of several goroutines |
| `Pem/*`, `X509/CrlPem` | x509.go:1820-1828 | `ParseCRL` with Go's encoding/pem and encoding/base64 |
| `Ecdsa/*` | x509.go:1042-1047, 1682-1807, 2200, 2409 | Go's crypto/ecdsa (`VerifyASN1`, `PrivateKey.Sign`) as used there |
| `Sm2/Readers` | sm2/sm2.go | the functions that read random octets, for arbitrary readers |
| `Pkcs12/KdfMem`, `Pkcs12/CryptoMem` | pkcs12/pbkdf.go, crypto.go, mac.go | the same functions over a memory of arrays and slices |
| `X509/RsaMem` | x509/pkcs1.go | MarshalPKCS1PrivateKey with the memory of the key, goroutines |
| `X509/P7Refs` | x509/pkcs7.go | which memory a parsed message refers to |
| `X509/ListRefs` | x509/x509.go (and encoding/asn1) | which memory parsed requests and lists refer to |
| `X509/Issuers` | x509/x509.go, sm2/sm2.go | the type assertion to crypto.Signer |
| `X509/Name` | (crypto/x509/pkix) | `pkix.Name` and its conversions |
| `X509/Display` | x509/x509.go | the String methods of algorithms and hashes |
| `X509/Strings, Eku, Parser` | x509/parser.go, x509.go | the certificate parser with all extensions |
| `X509/Builder, Create, Pkix` | x509/x509.go | extension building, CreateCertificate, CreateCRL, CreateRevocationList, ParseCRL, CreateCertificateRequest, ParseCertificateRequest |
| `X509/Pkcs7` | x509/pkcs7.go | parsing, Verify, both signing functions, attribute access |
| `*Spec.lean` | standards | the specifications |
| `*Lemmas*.lean, Inv, SeqInv, *Iff*, *Roundtrip, CertParts, Create*` | – | proofs |
| `Props/*` | – | the property theorems and their witnesses |

Not modelled: the `Error` methods (the
error types of x509, pkcs7 and pkcs12), `pkix.Name.String`, the texts of errors, the unexported and
unused helpers `hasSANExtension`, `hasNameConstraints`, `getSANExtension`, timing (constant-time behaviour), memory aliasing
of slices outside SM3, RC2, the PKCS#12 key derivation, encryption and MAC, parsed certificates and the templates of requests and revocation lists (for which it is, `Heap.lean`,
`X509/Refs.lean`, `X509/ListRefs.lean`, `X509/TemplateMem.lean`), and file-system state beyond what the helper functions of pkcs12 read or write (their `os` and `ioutil`
calls are parameters). The go test files are not part of the model.

## Findings about the code at this commit
Proved in the model; each is a theorem named in the MANIFEST.
* sm2: a signature whose nonce point has x ≡ 0 is produced but rejected (C06, C09). `PublicKey.VerifyRS` swaps message and user id
  (C16). `Encryt` panics for most lengths (C18) and `Decryt` on short or truncated input (C20); `Decryt` returns the
  plaintext together with the MAC error (C19). The KDF is right only up to 32 bytes (C21). `Encryt` of an empty message never returns unless the reader fails (C139). `GenerateKey` can return D = 0
  and D = N−1 (C23). The bit length of user ids wraps at 8192 bytes (C14).
  C3 is computed over coordinates of minimal length, so about one ciphertext in 128 is not interoperable (C108).
  The curve operations of key generation, signing, encryption and decryption depend on the secret scalar bit by bit (C146).
* pkcs12: `ToPEM` drops an error (C37); which duplicate is refused depends on the order of bags (C38); the SM2 read helper
  ignores the read error (C39); `Decode` returns the last CA certificate of a file made by Encode (C35).
  The iteration counts read from a file are not limited: a file of 49 octets makes `Decode` compute more than 2^63 hashes before the password matters (C144). `Encode`
  uses one iteration for the MAC key, so testing a password against its files costs three or so hashes (C144).
  Whatever the password, 2^40 trials open the certificates of a file, and the SHA-1 of the leaf certificate is not encrypted (C147).
  Passwords with NUL characters have equivalents: p and p NUL p open and make the same files, up to 15 characters (C148).
* x509: Ed25519 signatures are always refused because hash 0 is never available; MD5 and SHA-1 signatures are accepted
  (C67). SM2 keys are accepted with any ECDSA algorithm identifier. `CreateCertificate`, `CreateRevocationList` and
  `CreateCertificateRequest` hash the signed part with SM3 before calling the signer while verification adds the
  user-id digest, so results signed with SM2 do not verify; `CreateCRL` passes the raw list and does (C74). The self check of
  CreateCertificate is skipped for MD5WithRSA, SHA1WithRSA, ECDSAWithSHA1. Extensions merged into an existing
  extensionRequest attribute lose the critical flag (C62). A CRL's inner and outer algorithm identifiers are not compared.
  CreateRevocationList and CreateCRL write the issuer from the fields of the parsed subject: attributes of other types are
  lost and several values change order, so the issuer name of a list can differ from the subject of its issuer (C82).
  Path length constraints are never checked (C42). `CreateCertificateRequest` hands an RSA key the plain hash for the PSS
  algorithms too, so such requests do not verify (C132). `*sm2.PrivateKey` does not implement `crypto.Signer`, so SM2 keys cannot
  issue certificates, requests or lists (C133). A version of 2^63−1 wraps (C70).
* pkcs7: an error of the outer Unmarshal is dropped (C61); a signature over attributes verifies as a signature over other
  content (C60); the algorithm identifiers of a signer are ignored (C57). Without attributes a signature of a certificate
  is a valid PKCS #7 signature of its signed part (C100).
* keys: the parsers accept the SM2 keys D = 0 and D = N−1; with the latter every signature panics (C104). RSA factors are not
  checked to be distinct primes, so accepted keys need not work (C103), and signing with them can crash (C132). `ToPEM` refuses every file with an SM2 key (C98).

## Plan and result per property
Model and proof method; the theorems are in `MANIFEST.json`.

* **C01** SM3 digest conforms to GB/T 32905 (proved): `digest` as a record (h, x, nx, len : UInt64); refinement of Write/Sum to the GB/T 32905 padding and iteration in `Sm3/Spec`.
* **C02** SM3 is independent of how the input is chunked (proved): invariant "h = fold of compress over the complete blocks written since Reset, x = the remainder", by induction over the list of writes.
* **C03** Sum does not disturb the running hash; any history behaves as an append log (proved): the same invariant over arbitrary histories of Write/Sum/Reset, refinement to an append log.
* **C04** SM3 never panics and reports full writes (proved): panics are values of the model; index bounds follow from the invariant.
* **C05** SM3 length field wraps at 2^61 bytes (proved): UInt64 length field; equality with the standard below 2^61 bytes and the wrapped value beyond.
* **C06** SM2 digest signatures verify (partial): group law and order of G from `Curve`; algebra mod N. False for one nonce class: witness and exact condition.
* **C07** SM2 message signatures verify end to end (partial): C06 composed with the DER round trip (C10) and Z (C14).
* **C08** SM2 verification rejects out-of-range signatures (proved): unfolding of the range checks, contrapositive over all integers.
* **C09** SM2 verification is exactly the GB/T 32918.2 predicate (partial): verification against the GB/T 32918.2 section 7 predicate stated on Mathlib points.
* **C10** DER signature encoding round-trips (proved): cryptobyte writer/reader; two's complement minimal integers by induction on bytes.
* **C11** DER signature decoding is strict: one encoding per signature (proved): inversion of the reader: the input is the unique encoding.
* **C12** Nonces are always in [1, N-1] and derive from exactly 40 random bytes (proved): 40-byte read, arithmetic mod N−1.
* **C13** SignDigestRS output ranges and failure modes (proved): induction over the reader for the retry loop; every outcome characterised.
* **C14** User-id digest Z follows GB/T 32918.2 5.5 (proved): unfolding against an independently written Z; ENTL as a 16-bit number.
* **C15** Verify is VerifyDigest of the SM3 digest (proved): unfolding; the DER reader is total.
* **C16** Methods agree with package functions (partial): structural equality, and the negation for VerifyRS.
* **C17** SM2 decryption inverts encryption (proved): group law: k·(d·G) = d·(k·G); KDF and xor involution; byte layout.
* **C18** Encryt never panics (partial): panics as values; condition on message length and coordinate lengths.
* **C19** Decryt authenticates the plaintext (partial): soundness of the hash comparison; witness of the released plaintext.
* **C20** Decryt never panics on attacker-supplied bytes (partial): panics as values; exact condition on the input length and its point.
* **C21** KDF follows GB/T 32918.4 5.4.3 (partial): KDF against GB/T 32918.4 5.4.3.
* **C22** Decryt rejects C1 off the curve (proved): `Unmarshal` checks the curve equation.
* **C23** GenerateKey returns a valid usable key pair or the reader's error (partial): induction on the reader; curve membership of multiples of G.
* **C24** Key equality is an equivalence that matches the key material (proved): structural.
* **C25** RC2 decryption inverts encryption (proved): RC2 over BitVec 16; mixing and mashing rounds have inverses.
* **C26** RC2 conforms to RFC 2268 (proved): round by round equality with `Rc2Spec` written from RFC 2268.
* **C27** RC2 key schedule index safety (proved): index bounds of the expanded table for every key length and effective length.
* **C28** PKCS#12 key derivation conforms to RFC 7292 B.2 (proved): pbkdf over an arbitrary hash; RFC 7292 B.2 as integer arithmetic mod 2^(8v) per block.
* **C29** Salt and password stretching (proved): list lemmas on `fillWithRepeats`.
* **C30** BMP string encoding round-trips (proved): lists of code points and UTF-16 units.
* **C31** bmpString is injective on passwords it accepts (proved): injectivity of UTF-8 decoding on valid strings; exact collision condition otherwise.
* **C32** Password-based encryption round-trips (proved): CBC over an invertible 8-byte block cipher (RC2 model or the `Prims` Triple-DES) and PKCS#5 padding.
* **C33** pbDecrypt accepts exactly well-padded plaintexts and never panics (proved): inversion of unpadding; length arithmetic for CBC.
* **C34** PKCS#12 MAC (proved): HMAC as in RFC 2104 over `Prims.sha1`.
* **C35** PKCS#12 Encode / Decode round-trip (proved): byte level ASN.1 round trip of the PFX through encoding/asn1, for every random reader.
* **C36** PKCS#12 contents are used only after the MAC verifies (proved): Decode factored through getSafeContents; result independent of unauthenticated content.
* **C37** ToPEM reports failure (partial): exact result as a fold over the bags; witness.
* **C38** Decode and DecodeAll reject duplicate keys and certificates independently of bag order (partial): exact acceptance condition as a predicate on the bag list; witness for order dependence.
* **C39** SM2 PKCS#12 helper functions (proved): file system calls as parameters; composition with C35.
* **C40** Hash registry (proved): registry as a function of the history of RegisterHash calls; induction over histories.
* **C41** checkSignature accepts only signatures by the given key (proved): decision logic with `Verifiers` as parameter; SM2 through the sm2 model.
* **C42** CheckSignatureFrom enforces the CA rules (proved): decision logic stated outright, iff.
* **C43** Algorithm and curve OID tables are consistent (proved): finite tables, `decide` over the whole table lifted by lemmas.
* **C44** KeyUsage extension round-trips (proved): bit strings of at most two octets; bit-by-bit.
* **C45** BasicConstraints round-trip (proved): byte level, both optional fields.
* **C46** ExtKeyUsage round-trip (proved): OID codec round trip; table lookup both ways.
* **C47** SubjectAltName round-trip and rejection of malformed names (proved): SEQUENCE of context-tagged strings; URL parser as parameter.
* **C48** IP constraint masks (proved): prefix masks: iff 1…10…0.
* **C49** DNS name labels (proved): label grammar, iff.
* **C50** RFC 2821 mailbox parsing (proved): grammar of local parts and domain, iff.
* **C51** Unhandled critical extensions are recorded (proved): fold over the extension list.
* **C52** ParseCertificates is the concatenation of ParseCertificate (proved): induction on the input length.
* **C53** PKCS#8 private keys round-trip (proved): codec round trips through encoding/asn1 for PKCS#8 with inner SEC1/PKCS#1.
* **C54** SEC1 EC private keys (proved): SEC1 structure with padded private key; range check.
* **C55** PKCS#1 RSA keys (proved): CRT values recomputed; primes as a list.
* **C56** PKIX public keys round-trip (proved): SubjectPublicKeyInfo for RSA, ECDSA, SM2, DSA, Ed25519.
* **C57** PKCS#7 Verify soundness (proved): decision logic per signer, iff; SM2 through the sm2 model.
* **C58** PKCS#7 sign, serialise, parse, verify (partial): byte level round trip of SignedData and Verify on the result.
* **C59** PKCS#7 signed attributes are order independent (proved): sorting by encoding; permutation invariance.
* **C60** PKCS#7 attribute signatures are not valid content signatures (partial): general attack on every verified message.
* **C61** PKCS#7 parsing and signing report errors (partial): error propagation; witness of an accepted malformed message; well-formedness of verified ones.
* **C62** A certificate request is read back as it was made (proved): byte level round trip of CertificationRequest, attributes included.
* **C63** CreateCertificate preconditions and self-check (proved): decision logic of CreateCertificate stated as `CreateRequires`, iff; self-check.
* **C64** CreateRevocationList preconditions (proved): decision logic stated outright, iff.
* **C65** Directory strings are validated (proved): grammar of each string type, iff.
* **C66** No PKCS#12 file or certificate makes the decoder panic (proved): panics as values through the whole decoder, composed with the certificate parser.
* **C67** Signing-only algorithms are refused when verifying (partial): witness for every weak algorithm.
* **C68** Extension parsers accept exactly the well-formed extensions (proved): grammar per extension in `ExtSpec`, iff.
* **C69** Template fields survive extension building and parsing (proved): composition of the builders and C68; frame over the other extensions.
* **C70** ParseCertificate accepts exactly the certificates of the grammar (proved): grammar of certificates in `CertSpec`, iff.
* **C71** The signed part determines the parsed certificate (proved): injectivity of the framing of the signed part.
* **C72** CreateCertificate output parses back to the template (proved): C63, C69 and C70 composed.
* **C73** CreateRevocationList output parses back to the template (proved): byte level round trip of CertificateList.
* **C74** CreateCRL output parses back and verifies for SM2 (proved): as C73 and the sm2 model for the signature.
* **C75** The signed octets determine a revocation list (proved): injectivity of the framing; PEM wrapper.
* **C76** What CreateCertificateRequest requires (proved): decision logic stated as `CsrRequires`, iff.
* **C77** The signed octets determine a request (proved): injectivity of the framing.
* **C78** GetOnlySigner returns exactly the certificate of the only signer (proved): composition of C57 with the lookup of certificates.
* **C79** UnmarshalSignedAttribute returns a signed value (proved): lookup in the attribute list; composition with C57.
* **C80** Certificate.Equal is equality of the encodings (proved): comparison of octets; C70 for parsed certificates.
* **C81** Algorithm names are unambiguous (proved): finite tables; injectivity of decimal printing for the rest.
* **C82** Names survive writing and reading (proved): pkix.Name with its two conversions modelled; composition with C62, C72, C73.
* **C83** Issued certificates verify under their issuer (proved): composition of C72 with the decision logic of CheckSignatureFrom.
* **C84** Exactly which SM2 signatures are accepted (proved): as C06 and C09.
* **C85** Exactly when SM2 encryption and decryption panic (proved): as C18 and C20.
* **C86** Plaintexts that Decryt accepts are authentic (proved): as C19.
* **C87** The key stream Encryt and Decryt use (proved): loop unrolled by induction.
* **C88** Exactly which key GenerateKey returns (proved): induction over the stream.
* **C89** Exactly what Decode, DecodeAll and ToPEM return (proved): as C37 and C38.
* **C90** PublicKey and PrivateKey methods other than VerifyRS agree with the package functions; VerifyRS swaps (proved): unfolding; arguments of each method.
* **C91** A verified PKCS#7 message is well formed, and signing failures are reported (proved): as C61.
* **C92** Private key parsers accept exactly the DER of valid keys (proved): grammar of DER elements stated without the codecs; inversion lemma for every field kind (mandatory, optional, explicit, SEQUENCE OF), then case analysis per parser, both directions.
* **C93** Public key parsers accept exactly the DER of keys of the four algorithms (proved): as C92, with the key grammar of C70.
* **C94** ParseDERCRL accepts exactly the DER of revocation lists (proved): as C92, with lemmas for time fields, ANY values, nil-able slices and explicit tags; both directions.
* **C95** ParseCertificateRequest accepts exactly the DER of certificate requests (proved): as C92; the attribute loops by induction over the elements, SubjectAltName by C45.
* **C96** ParsePKCS7 and Verify accept exactly the signed messages of the grammar (proved): grammar of SignedData stated without the codecs (Pkcs7Grammar); inversion lemma per structure, stepwise case split for the dropped error; with C57 an exact criterion on octets for Verify.
* **C97** pkcs12 Decode and DecodeAll accept exactly the PFX files for the password (proved): grammar of PFX stated without the codecs (PfxGrammar); inversion lemma for every structure, then C36/C38 give the control flow; both directions.
* **C98** ToPEM returns exactly one block per bag of the PFX (proved): as C97; headers as maps by induction over the attributes; end to end with the attributes that Encode writes.
* **C99** Parsing plus signature checking, octet by octet (proved): compose the byte-level grammars (C52, C94, C95) with the signature rules (C41, C42, C75).
* **C100** No octets have two meanings (proved): read the leading tags off each grammar; incompatible tag lists cannot start the same octets (uniqueness of elements).
* **C101** Random octets of an SM2 signature determine the key (proved): signing equation s(1+d) = k - rd in ZMod N, solved for d.
* **C102** A digest signature does not identify the signer (proved): the group has prime order N, so s G + t Q = R is solved for Q; R and -R give two keys, two candidates for x below P give at most four.
* **C103** An accepted RSA key with distinct prime factors works (proved): conditions established by Validate (C55) + Fermat per factor + coprime factors.
* **C104** No panics on untrusted octets (proved): case analysis of each parser and check, panics being an explicit result of the model; the bad key from the round trip C53 and the panic condition C13.
* **C105** Keys that were read can be written and are read back unchanged (proved): what the parsers return satisfies the hypotheses of the round-trip theorems C53-C56; injectivity follows.
* **C106** An SM2 message signature is bound to user id, key and message (proved): cut the hashed octets into fields of known length; the length of the user id follows from the total length.
* **C107** Curve operations never leave the curve (proved): representation of group elements is preserved by the modelled operations (Curve/Group); compare with a model that has the checks.
* **C108** SM2 encryption against GB/T 32918.4 (proved): inversion of Encryt and the case analysis of Decryt against a ciphertext predicate in the style of the standard.
* **C109** Files cut short are never accepted (proved): grammars (C52, C92-C97) give one outer sequence; elements are prefix free; a crash while writing leaves a prefix.
* **C110** Exactly which octets the writers of keys return (proved): octet-exact specification of the five structures (X509/KeyWriteSpec.lean); marshalField reduced to elements, both directions.
* **C111** Exactly which octets pkcs12.Encode returns (proved): octet-exact specification of the PFX (Pkcs12/PfxWriteSpec.lean), composed bottom up from two- and three-field structures, both directions; uses C110 for the key.
* **C112** Exactly which octets NewSignedData and NewSignedDataCallBack return (proved): octet-exact specification of the message (X509/Pkcs7WriteSpec.lean); the order of the attributes from their lengths, the six-field structures composed bottom up, both directions.
* **C113** Exactly which octets CreateCertificate returns (proved): octet-exact specification of names, extensions and certificates (X509/ExtWriteSpec.lean, X509/CertWriteSpec.lean); every marshaller reduced to elements, both directions.
* **C114** Exactly which octets CreateRevocationList and CreateCRL return (proved): octet-exact specification of lists (X509/ListWriteSpec.lean), composed from the parts of C113.
* **C115** Exactly which octets CreateCertificateRequest returns (proved): octet-exact specification of requests (X509/RequestWriteSpec.lean); the loop over the attributes by induction on the first attribute that asks for extensions.
* **C116** Chains of certificates of any length (proved): hierarchies as an inductive predicate; invariant: every certificate in it is a CA with a known key, a subject and a key identifier; reduction of a verified chain to a forged link by induction.
* **C117** Exactly when the writers crash, fail or succeed (proved): a three-way outcome predicate, proved case by case over the kinds of key; the crash conditions are predicates on the key alone; Encode and NewSignedData by following the steps that cannot panic.
* **C118** Signatures of one digest that share their first number (proved): write the verification point as a multiple of G, linear in s; equal x-coordinates mean equal or opposite points; linear algebra modulo the prime N.
* **C119** A parsed certificate is as good a template as the one it was made from (proved): invert CreateCertificate, compute each field of the parsed certificate, show that the extension builder gives equal output on it field by field.
* **C120** From a request to a certificate (proved): request grammar (C95) gives readability of the CA template; C72 and C83 then apply; the two readings of names agree.
* **C121** Revocation lists of a CA fit the certificates it issued (proved): combine C116 (hierarchy), C73/C74 (reading back of lists) and the lookup of entries; exact condition for equal issuer names.
* **C122** What a verified signed message with a verified chain proves (proved): invert Verify (C57) and the chain (C116); DER of the attribute set is injective, so the digest attribute determines the digest of the content.
* **C123** What the digests of SM3 give away, and what a collision takes (proved): the padding depends on the length only; iteration over appended blocks; Merkle-Damgard walk backwards through the blocks.
* **C124** SM2 ciphertexts: length, repeated or known randomness, modification (proved): write Encryt and Decryt as the parts of the standard; C2 is message xor key stream; the check of C3 decides.
* **C125** Changed or replaced PKCS#12 files (proved): the grammar of the outer PFX determines the MAC input; getSafeContents depends on it and the password alone; C35 for the results.
* **C126** SM3 hash objects and the memory of the caller (proved): memory as a list of arrays, slices as windows, append in place or into a new array; refinement of the objects by logs of octets.
* **C127** RC2 blocks in memory: any overlap of source and destination (proved): the stores of the result one by one on this memory; frame for every octet.
* **C128** What parsing a certificate writes to the standard output (proved): the print statement as a function of the octets; the exact grammar of keys gives the line.
* **C129** A parsed certificate and the memory it was parsed from (proved): the readers of cryptobyte on slices of the memory model; refinement of the reading of octets; frame by the windows.
* **C130** Sizes of SM2 signatures, exact octets of SM2 keys (proved): bounds on the DER length of numbers below the order; the writer theorems C110 applied to the literal octets.
* **C131** Creating requests and revocation lists leaves the caller's template as it was (proved): the attributes as slices of slices and the entries as a slice in a memory of arrays; the copies are new arrays, distinct from each other, so the writes are seen only by the reader of the copy.
* **C132** RSA signatures: what is accepted, what is made, and when making one crashes (proved): verification, signing, the Chinese remainder computation, MGF1 and PSS of crypto/rsa are modelled; the encodings are specified octet by octet after RFC 8017 with the DER grammar for DigestInfo. Verification is proved equivalent to the specification, the private operation equal to the power (Fermat and CRT); documents follow from the round trips with the concrete signer.
* **C133** Which private keys can issue documents (proved): the type assertion to crypto.Signer is modelled as a function of the type of the key (Verif/X509/Issuers.lean); the positive part is the inversion of the creating functions, the negative part the exact acceptance of signatures (C41) and uniqueness of the digest of an SM2 signature.
* **C134** Parsed requests and revocation lists and the memory they were parsed from (proved): as C129: asn1.Unmarshal cuts the slice it is given (Verif/X509/ListRefs.lean: elementS is parseHdr on the octets of a slice); following the decoders field by field, the slices hold what the decoders return (field_cut, raw_cut, aligned_of).
* **C135** The integers passed to and returned from package sm2 by reference (proved): the functions again, over a memory of integers with references (Verif/Sm2/Ints.lean); frame: a computation whose writes all go to integers it made (Fr, IntsFrame); refinement: run on references it yields what Sm2/Model yields on the values (IntsRefine); histories by induction.
* **C136** Goroutines that use package sm2 at the same time (proved): the programs of Sm2/Ints are trees of accesses (allocate, read, assign), so that a scheduler can interleave them (Verif/Sm2/Sched.lean); invariant by induction over the schedule: shared integers unchanged, and each goroutine is at a point of its uninterrupted execution (Along); every program assigns only to integers it allocated (fr_call, fr_client).
* **C137** Revocation lists in PEM (proved): model of encoding/pem Decode and encoding/base64 (Verif/Pem/Model.lean), against relations for base64 (RFC 4648) and the PEM layout (Verif/Pem/Spec.lean): completeness at the beginning of the text, soundness by induction over the iterations of Decode.
* **C138** ECDSA keys: signatures, certificates, requests and revocation lists (proved): model of crypto/ecdsa (Verif/Ecdsa/Model.lean) against ECDSA on the group of points of Mathlib (Verif/Ecdsa/Spec.lean); curves by kernel computation (Verif/Ecdsa/Primes.lean: primality certificates, base point, order); documents with the theorems on creation and parsing (C62, C72, C73, C74, C113).
* **C139** SM2 functions with an arbitrary io.Reader (proved): big-step relations for io.ReadFull and the six functions over any reader; one generic loop read-decide-repeat, of which they and the list functions of Model.lean are instances; soundness, completeness for readers that deliver, determinism.
* **C140** A parsed PKCS#7 message and the memory it was parsed from (proved): as C129 and C134 (Verif/X509/P7Refs.lean); fields that may be absent and lists get slice versions; all fields are functions of the contents of the slices, so the frame of a write gives stability and what an overwritten content changes.
* **C141** Writing one RSA key from several goroutines (proved): the function as a sequence of accesses to the pointers, integers and CRT arrays of the key, interleaved by a schedule (Verif/X509/RsaMem.lean); read-only programs commute with everything; rely-guarantee invariant for keys that are being precomputed; explicit schedules for the race; ParsePKCS1PrivateKey ignores CRT values (Verif/Props/RsaCache.lean).
* **C142** How often the random choices go wrong (proved): counting: strings of n octets are the numbers below 256^n; a nonce has floor(2^320/(N-1)) or one more preimages; at most 2 points have a given x and at most 3 a given y (roots of the cubic), so each failing case is a small set of nonces; union over the attempts; the sampling loop of elliptic.GenerateKey by induction on the candidates (Verif/Props/Sm2Prob.lean, Sm2Chance.lean, Sm2ChanceKey.lean).
* **C143** PKCS#12 key derivation, encryption and MAC leave the caller's memory alone (proved): the functions again over a memory of arrays (Verif/Pkcs12/KdfMem.lean, CryptoMem.lean), with append into spare capacity and the in-place update of I; frame lemmas (which arrays each step may write) composed through the loops, refinement to the value model; histories by induction over the calls (Verif/Props/KdfMemory.lean).
* **C144** How many hashes a PKCS#12 file costs, and how few a wrong password costs (proved): the functions again as computations that ask an oracle for SHA-1 values (Verif/Pkcs12/Queries.lean); results equal to the model for every hash; counts of queries by induction over the loops; an explicit family of files through the grammar of C125; the parts of an Encode file as in C35 (Verif/Pkcs12/QueriesEncode.lean, Verif/Props/P12Work.lean).
* **C145** SM3 hash objects used by several goroutines (proved): the methods as programs of loads and stores on the fields of numbered objects (Verif/Sm3/Shared.lean), proved to be the model of C01-C05 when not interrupted; footprints and an invariant over schedules (each goroutine is where it would be alone after as many steps, its objects as well); for the races explicit schedules built from executed prefixes (Verif/Sm3/SharedLemmas.lean, SharedSched.lean, Verif/Props/Sm3Shared.lean).
* **C146** The curve operations of SM2 show the secrets (proved): the functions once more, returning the list of curve operations beside the result (Verif/Sm2/Trace.lean), proved to return what the model returns; an observer as a fold over the list (Verif/Sm2/TraceSpec.lean); induction over the bits of the scalar and over the retries (Verif/Sm2/TraceLemmas.lean), then the algebra of C101 and C124 (Verif/Props/Sm2Trace.lean).
* **C147** What a PKCS#12 file shows without its password (proved): from the exact octets of Encode (C111): the encrypted part is found with the grammar alone and unique; CBC decryption with a wrong initialisation vector is wrong in the first block only, and the certificates start behind it (Verif/Props/P12Forty.lean).
* **C148** Which PKCS#12 passwords are one and the same (proved): the stretched octets are those of the stretched characters; every function of the package uses the password only through them, except for the comparison with the empty password; the converse with a hash function that singles out one string, and with the first clash in the chain of hashes behind the MAC (Verif/Props/P12SamePass.lean).
