import Verif.Props.Sm3
import Verif.Props.Sm2Sign
import Verif.Props.Sm2SignEx
import Verif.Props.Sm2Enc
import Verif.Props.P12Prim
import Verif.Props.P12Crypto
import Verif.Props.X509Pub
import Verif.Props.P12Ex
import Verif.Props.X509Sig
import Verif.Props.X509Tables
import Verif.Props.X509Strings
import Verif.Props.X509Ext
import Verif.Props.Pkcs7
import Verif.Props.Pkcs7Ex
import Verif.Props.X509Cert
import Verif.Props.X509Create
import Verif.Props.X509Crl
import Verif.Asn1.SeqInv
import Verif.X509.CsrSpec
import Verif.X509.CsrLemmas
import Verif.Props.X509Csr
import Verif.X509.Name
import Verif.X509.NameSpec
import Verif.X509.NameLemmas
import Verif.X509.Display
import Verif.Props.Pkcs7Use
import Verif.Props.X509Name
import Verif.Props.X509Display
import Verif.Asn1.Grammar
import Verif.Asn1.GrammarLemmas
import Verif.X509.KeyGrammar
import Verif.Props.X509KeyDer
import Verif.X509.ListGrammar
import Verif.X509.ListGrammarLemmas
import Verif.X509.CsrGrammar
import Verif.Props.X509ListDer
import Verif.Pkcs12.PfxGrammar
import Verif.Pkcs12.PfxGrammarLemmas
import Verif.Props.P12Der
import Verif.X509.Pkcs7Grammar
import Verif.X509.Pkcs7GrammarLemmas
import Verif.Props.Pkcs7Der
import Verif.Props.X509VerifyDer
import Verif.Props.Disjoint
import Verif.Props.Sm2Leak
import Verif.Props.RsaUse
import Verif.Props.Sm2More
import Verif.Props.Reencode
import Verif.Props.Truncate
import Verif.Props.KeyWrite
import Verif.Props.PfxWrite
import Verif.Props.Pkcs7Write
import Verif.Props.CertWrite
import Verif.Props.ListWrite
import Verif.Props.RequestWrite
import Verif.Props.X509Chain
import Verif.Props.WriteOutcome
import Verif.Props.Sm2Mall
import Verif.Props.Renew
import Verif.Props.Issue
import Verif.Props.Revoke
import Verif.Props.Trust
import Verif.Props.Sm3Ext
import Verif.Props.Sm2Tamper
import Verif.Props.P12Tamper
import Verif.Props.Memory
import Verif.Props.X509Print
import Verif.Props.CertMemory
import Verif.Props.Sizes
import Verif.Props.TemplateMem
import Verif.X509.Rsa
import Verif.X509.RsaSpec
import Verif.Props.RsaLemmas
import Verif.Props.RsaSign
import Verif.Props.RsaDocs
import Verif.Props.RsaEx
import Verif.Props.Issuers
import Verif.Props.IssuersEx
import Verif.X509.ListRefs
import Verif.X509.ListRefsLemmas
import Verif.Props.ListMemory
import Verif.Props.ListMemoryEx
import Verif.Sm2.Ints
import Verif.Sm2.IntsLemmas
import Verif.Sm2.IntsFrame
import Verif.Sm2.IntsRefine
import Verif.Props.Sm2Ints
import Verif.Sm2.Sched
import Verif.Props.Sm2Sched
import Verif.Pem.Model
import Verif.Pem.Spec
import Verif.Pem.Lemmas
import Verif.X509.CrlPem
import Verif.Props.Pem
import Verif.Props.EcdsaEx
import Verif.Props.Sm2Readers
import Verif.Props.P7MemoryEx
import Verif.Props.RsaSchedEx
import Verif.Props.Sm2ChanceKey
import Verif.Props.KdfMemory
import Verif.Props.P12Work
import Verif.Props.Sm3Shared
import Verif.Props.Sm2Trace
import Verif.Props.P12Forty
import Verif.Props.P12SamePass
