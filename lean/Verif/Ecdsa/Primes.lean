import Verif.Ecdsa.Laws
import Verif.Curve.PrimeNP
/-
The curves of crypto/elliptic that x509 knows (x509.go:701-710) satisfy `Lawful`. Primality by Pratt certificates checked in the kernel; for the order of P-521 see Curve/PrimeNP.lean.
-/
namespace MCrypto.Ecdsa
open MCrypto MCrypto.Curve MCrypto.X509

/-- Pratt certificates for the field prime of P-224 and every prime it depends on. -/
def p224Cert : List Step := [
  (3, 2, [(2, 1)]),
  (5, 2, [(2, 2)]),
  (17, 3, [(2, 4)]),
  (257, 3, [(2, 8)]),
  (641, 3, [(2, 7), (5, 1)]),
  (65537, 3, [(2, 16)]),
  (7, 3, [(2, 1), (3, 1)]),
  (274177, 5, [(2, 8), (3, 2), (7, 1), (17, 1)]),
  (11, 2, [(2, 1), (5, 1)]),
  (727, 5, [(2, 1), (3, 1), (11, 2)]),
  (17449, 14, [(2, 3), (3, 1), (727, 1)]),
  (6700417, 5, [(2, 7), (3, 1), (17449, 1)]),
  (23, 5, [(2, 1), (11, 1)]),
  (47, 5, [(2, 1), (23, 1)]),
  (31, 3, [(2, 1), (3, 1), (5, 1)]),
  (373, 2, [(2, 2), (3, 1), (31, 1)]),
  (43, 3, [(2, 1), (3, 1), (7, 1)]),
  (173, 2, [(2, 2), (43, 1)]),
  (347, 2, [(2, 1), (173, 1)]),
  (16657, 5, [(2, 4), (3, 1), (347, 1)]),
  (166571, 2, [(2, 1), (5, 1), (16657, 1)]),
  (2998279, 3, [(2, 1), (3, 2), (166571, 1)]),
  (67280421310721, 3, [(2, 8), (5, 1), (47, 1), (373, 1), (2998279, 1)]),
  (26959946667150639794667015087019630673557916260026308143510066298881, 22, [(2, 96), (3, 1), (5, 1), (17, 1), (257, 1), (641, 1), (65537, 1), (274177, 1), (6700417, 1), (67280421310721, 1)])]

/-- Pratt certificates for the order of P-224 and every prime it depends on. -/
def n224Cert : List Step := [
  (3, 2, [(2, 1)]),
  (5, 2, [(2, 2)]),
  (17, 3, [(2, 4)]),
  (11, 2, [(2, 1), (5, 1)]),
  (67, 2, [(2, 1), (3, 1), (11, 1)]),
  (269, 2, [(2, 2), (67, 1)]),
  (2153, 3, [(2, 3), (269, 1)]),
  (89, 3, [(2, 3), (11, 1)]),
  (7, 3, [(2, 1), (3, 1)]),
  (631, 3, [(2, 1), (3, 2), (5, 1), (7, 1)]),
  (31, 3, [(2, 1), (3, 1), (5, 1)]),
  (1303, 6, [(2, 1), (3, 1), (7, 1), (31, 1)]),
  (85999, 3, [(2, 1), (3, 1), (11, 1), (1303, 1)]),
  (23, 5, [(2, 1), (11, 1)]),
  (47, 5, [(2, 1), (23, 1)]),
  (659, 2, [(2, 1), (7, 1), (47, 1)]),
  (1319, 13, [(2, 1), (659, 1)]),
  (145091, 2, [(2, 1), (5, 1), (11, 1), (1319, 1)]),
  (13928737, 15, [(2, 5), (3, 1), (145091, 1)]),
  (41, 6, [(2, 3), (5, 1)]),
  (2707, 2, [(2, 1), (3, 1), (11, 1), (41, 1)]),
  (239, 7, [(2, 1), (7, 1), (17, 1)]),
  (29, 2, [(2, 2), (7, 1)]),
  (349, 2, [(2, 2), (3, 1), (29, 1)]),
  (166823, 5, [(2, 1), (239, 1), (349, 1)]),
  (61, 2, [(2, 2), (3, 1), (5, 1)]),
  (43, 3, [(2, 1), (3, 1), (7, 1)]),
  (173, 2, [(2, 2), (43, 1)]),
  (347, 2, [(2, 1), (173, 1)]),
  (13, 2, [(2, 2), (3, 1)]),
  (3433, 5, [(2, 3), (3, 1), (11, 1), (13, 1)]),
  (20599, 3, [(2, 1), (3, 1), (3433, 1)]),
  (37, 2, [(2, 2), (3, 2)]),
  (139, 2, [(2, 1), (3, 1), (23, 1)]),
  (30859, 2, [(2, 1), (3, 1), (37, 1), (139, 1)]),
  (2089, 7, [(2, 3), (3, 2), (29, 1)]),
  (87739, 7, [(2, 1), (3, 1), (7, 1), (2089, 1)]),
  (127, 3, [(2, 1), (3, 2), (7, 1)]),
  (509, 2, [(2, 2), (127, 1)]),
  (101, 2, [(2, 2), (5, 2)]),
  (10909, 2, [(2, 2), (3, 3), (101, 1)]),
  (11105363, 2, [(2, 1), (509, 1), (10909, 1)]),
  (821796863, 5, [(2, 1), (37, 1), (11105363, 1)]),
  (432621809776543, 3, [(2, 1), (3, 1), (87739, 1), (821796863, 1)]),
  (136401162692544977256234449, 3, [(2, 4), (31, 1), (20599, 1), (30859, 1), (432621809776543, 1)]),
  (34646440928557194402992574983797, 2, [(2, 2), (3, 1), (61, 1), (347, 1), (136401162692544977256234449, 1)]),
  (375503554633724504423937478103159147573209, 19, [(2, 3), (3, 1), (2707, 1), (166823, 1), (34646440928557194402992574983797, 1)]),
  (50520606258875818707470860153287666700917696099933389351507, 2, [(2, 1), (89, 1), (631, 1), (85999, 1), (13928737, 1), (375503554633724504423937478103159147573209, 1)]),
  (26959946667150639794667015087019625940457807714424391721682722368061, 2, [(2, 2), (3, 6), (5, 1), (17, 1), (2153, 1), (50520606258875818707470860153287666700917696099933389351507, 1)])]

/-- Pratt certificates for the field prime of P-256 and every prime it depends on. -/
def p256Cert : List Step := [
  (3, 2, [(2, 1)]),
  (5, 2, [(2, 2)]),
  (17, 3, [(2, 4)]),
  (257, 3, [(2, 8)]),
  (641, 3, [(2, 7), (5, 1)]),
  (1531, 2, [(2, 1), (3, 2), (5, 1), (17, 1)]),
  (65537, 3, [(2, 16)]),
  (7, 3, [(2, 1), (3, 1)]),
  (13, 2, [(2, 2), (3, 1)]),
  (53, 2, [(2, 2), (13, 1)]),
  (11, 2, [(2, 1), (5, 1)]),
  (661, 2, [(2, 2), (3, 1), (5, 1), (11, 1)]),
  (490463, 14, [(2, 1), (7, 1), (53, 1), (661, 1)]),
  (727, 5, [(2, 1), (3, 1), (11, 2)]),
  (17449, 14, [(2, 3), (3, 1), (727, 1)]),
  (6700417, 5, [(2, 7), (3, 1), (17449, 1)]),
  (241, 7, [(2, 4), (3, 1), (5, 1)]),
  (2411, 6, [(2, 1), (5, 1), (241, 1)]),
  (23, 5, [(2, 1), (11, 1)]),
  (107, 2, [(2, 1), (53, 1)]),
  (157, 5, [(2, 2), (3, 1), (13, 1)]),
  (3769, 7, [(2, 3), (3, 1), (157, 1)]),
  (204061199, 11, [(2, 1), (11, 1), (23, 1), (107, 1), (3769, 1)]),
  (34282281433, 17, [(2, 3), (3, 1), (7, 1), (204061199, 1)]),
  (43, 3, [(2, 1), (3, 1), (7, 1)]),
  (173, 2, [(2, 2), (43, 1)]),
  (197, 2, [(2, 2), (7, 2)]),
  (919, 7, [(2, 1), (3, 3), (17, 1)]),
  (3677, 2, [(2, 2), (919, 1)]),
  (66417393611, 6, [(2, 1), (5, 1), (53, 1), (173, 1), (197, 1), (3677, 1)]),
  (11290956913871, 13, [(2, 1), (5, 1), (17, 1), (66417393611, 1)]),
  (757, 2, [(2, 2), (3, 3), (7, 1)]),
  (18169, 11, [(2, 3), (3, 1), (757, 1)]),
  (181, 2, [(2, 2), (3, 2), (5, 1)]),
  (1087, 3, [(2, 1), (3, 1), (181, 1)]),
  (4349, 2, [(2, 2), (1087, 1)]),
  (78283, 3, [(2, 1), (3, 2), (4349, 1)]),
  (313, 10, [(2, 3), (3, 1), (13, 1)]),
  (704251, 2, [(2, 1), (3, 2), (5, 3), (313, 1)]),
  (46076956964474543, 5, [(2, 1), (23, 1), (18169, 1), (78283, 1), (704251, 1)]),
  (774023187263532362759620327192479577272145303, 3, [(2, 1), (3, 2), (2411, 1), (34282281433, 1), (11290956913871, 1), (46076956964474543, 1)]),
  (835945042244614951780389953367877943453916927241, 11, [(2, 3), (3, 3), (5, 1), (774023187263532362759620327192479577272145303, 1)]),
  (115792089210356248762697446949407573530086143415290314195533631308867097853951, 6, [(2, 1), (3, 1), (5, 2), (17, 1), (257, 1), (641, 1), (1531, 1), (65537, 1), (490463, 1), (6700417, 1), (835945042244614951780389953367877943453916927241, 1)])]

/-- Pratt certificates for the order of P-256 and every prime it depends on. -/
def n256Cert : List Step := [
  (3, 2, [(2, 1)]),
  (5, 2, [(2, 2)]),
  (7, 3, [(2, 1), (3, 1)]),
  (71, 7, [(2, 1), (5, 1), (7, 1)]),
  (13, 2, [(2, 2), (3, 1)]),
  (131, 2, [(2, 1), (5, 1), (13, 1)]),
  (31, 3, [(2, 1), (3, 1), (5, 1)]),
  (373, 2, [(2, 2), (3, 1), (31, 1)]),
  (3407, 5, [(2, 1), (13, 1), (131, 1)]),
  (11, 2, [(2, 1), (5, 1)]),
  (727, 5, [(2, 1), (3, 1), (11, 2)]),
  (17449, 14, [(2, 3), (3, 1), (727, 1)]),
  (37, 2, [(2, 2), (3, 2)]),
  (43, 3, [(2, 1), (3, 1), (7, 1)]),
  (9547, 2, [(2, 1), (3, 1), (37, 1), (43, 1)]),
  (38189, 2, [(2, 2), (9547, 1)]),
  (17, 3, [(2, 4)]),
  (19, 2, [(2, 1), (3, 2)]),
  (229, 6, [(2, 2), (3, 1), (19, 1)]),
  (1201, 11, [(2, 4), (3, 1), (5, 2)]),
  (9350987, 2, [(2, 1), (17, 1), (229, 1), (1201, 1)]),
  (187019741, 2, [(2, 2), (5, 1), (9350987, 1)]),
  (29, 2, [(2, 2), (7, 1)]),
  (311, 17, [(2, 1), (5, 1), (31, 1)]),
  (311245691, 2, [(2, 1), (5, 1), (7, 1), (17, 1), (29, 2), (311, 1)]),
  (622491383, 5, [(2, 1), (311245691, 1)]),
  (263, 5, [(2, 1), (131, 1)]),
  (126241, 7, [(2, 5), (3, 1), (5, 1), (263, 1)]),
  (337, 10, [(2, 4), (3, 1), (7, 1)]),
  (104471, 11, [(2, 1), (5, 1), (31, 1), (337, 1)]),
  (3969899, 2, [(2, 1), (19, 1), (104471, 1)]),
  (1002328039319, 19, [(2, 1), (126241, 1), (3969899, 1)]),
  (1297, 10, [(2, 4), (3, 4)]),
  (97, 5, [(2, 5), (3, 1)]),
  (16879, 3, [(2, 1), (3, 1), (29, 1), (97, 1)]),
  (127, 3, [(2, 1), (3, 2), (7, 1)]),
  (151, 6, [(2, 1), (3, 1), (5, 2)]),
  (1511, 11, [(2, 1), (5, 1), (151, 1)]),
  (3023, 5, [(2, 1), (1511, 1)]),
  (41, 6, [(2, 3), (5, 1)]),
  (155317, 5, [(2, 2), (3, 1), (7, 1), (43, 2)]),
  (191039911, 3, [(2, 1), (3, 1), (5, 1), (41, 1), (155317, 1)]),
  (208150935158385979, 2, [(2, 1), (3, 1), (11, 1), (43, 1), (127, 1), (3023, 1), (191039911, 1)]),
  (2624747550333869278416773953, 7, [(2, 6), (3, 2), (1297, 1), (16879, 1), (208150935158385979, 1)]),
  (115792089210356248762697446949407573529996955224135760342422259061068512044369, 7, [(2, 4), (3, 1), (71, 1), (131, 1), (373, 1), (3407, 1), (17449, 1), (38189, 1), (187019741, 1), (622491383, 1), (1002328039319, 1), (2624747550333869278416773953, 1)])]

/-- Pratt certificates for the field prime of P-384 and every prime it depends on. -/
def p384Cert : List Step := [
  (3, 2, [(2, 1)]),
  (19, 2, [(2, 1), (3, 2)]),
  (5, 2, [(2, 2)]),
  (11, 2, [(2, 1), (5, 1)]),
  (67, 2, [(2, 1), (3, 1), (11, 1)]),
  (23, 5, [(2, 1), (11, 1)]),
  (47, 5, [(2, 1), (23, 1)]),
  (13, 2, [(2, 2), (3, 1)]),
  (157, 5, [(2, 2), (3, 1), (13, 1)]),
  (7, 3, [(2, 1), (3, 1)]),
  (1373, 2, [(2, 2), (7, 3)]),
  (79, 3, [(2, 1), (3, 1), (13, 1)]),
  (2213, 2, [(2, 2), (7, 1), (79, 1)]),
  (2862218959, 3, [(2, 1), (3, 1), (157, 1), (1373, 1), (2213, 1)]),
  (807145746439, 3, [(2, 1), (3, 1), (47, 1), (2862218959, 1)]),
  (29, 2, [(2, 2), (7, 1)]),
  (233, 3, [(2, 3), (29, 1)]),
  (8389, 6, [(2, 2), (3, 2), (233, 1)]),
  (17, 3, [(2, 4)]),
  (38557, 2, [(2, 2), (3, 4), (7, 1), (17, 1)]),
  (271, 6, [(2, 1), (3, 3), (5, 1)]),
  (3253, 2, [(2, 2), (3, 1), (271, 1)]),
  (312289, 14, [(2, 5), (3, 1), (3253, 1)]),
  (131, 2, [(2, 1), (5, 1), (13, 1)]),
  (263, 5, [(2, 1), (131, 1)]),
  (1579, 3, [(2, 1), (3, 1), (263, 1)]),
  (6317, 2, [(2, 2), (1579, 1)]),
  (59, 2, [(2, 1), (29, 1)]),
  (599, 7, [(2, 1), (13, 1), (23, 1)]),
  (661, 2, [(2, 2), (3, 1), (5, 1), (11, 1)]),
  (513928823, 5, [(2, 1), (11, 1), (59, 1), (599, 1), (661, 1)]),
  (53448597593, 3, [(2, 3), (13, 1), (513928823, 1)]),
  (1357291859799823621, 2, [(2, 2), (3, 1), (5, 1), (67, 1), (6317, 1), (53448597593, 1)]),
  (181, 2, [(2, 2), (3, 2), (5, 1)]),
  (211, 2, [(2, 1), (3, 1), (5, 1), (7, 1)]),
  (881, 3, [(2, 4), (5, 1), (11, 1)]),
  (105957871, 3, [(2, 1), (3, 1), (5, 1), (19, 1), (211, 1), (881, 1)]),
  (139, 2, [(2, 1), (3, 1), (23, 1)]),
  (21407, 5, [(2, 1), (7, 1), (11, 1), (139, 1)]),
  (246608641, 19, [(2, 8), (3, 2), (5, 1), (21407, 1)]),
  (529709925838459440593, 3, [(2, 4), (7, 1), (181, 1), (105957871, 1), (246608641, 1)]),
  (97, 5, [(2, 5), (3, 1)]),
  (6051631, 6, [(2, 1), (3, 1), (5, 1), (13, 1), (59, 1), (263, 1)]),
  (336757, 2, [(2, 2), (3, 1), (7, 1), (19, 1), (211, 1)]),
  (41, 6, [(2, 3), (5, 1)]),
  (43, 3, [(2, 1), (3, 1), (7, 1)]),
  (1033, 5, [(2, 3), (3, 1), (43, 1)]),
  (568151, 17, [(2, 1), (5, 2), (11, 1), (1033, 1)]),
  (73, 5, [(2, 3), (3, 2)]),
  (293, 2, [(2, 2), (73, 1)]),
  (3517, 2, [(2, 2), (3, 1), (293, 1)]),
  (61, 2, [(2, 2), (3, 1), (5, 1)]),
  (937, 5, [(2, 3), (3, 2), (13, 1)]),
  (363557, 2, [(2, 2), (97, 1), (937, 1)]),
  (532247449, 7, [(2, 3), (3, 1), (61, 1), (363557, 1)]),
  (44925942675193, 5, [(2, 3), (3, 1), (3517, 1), (532247449, 1)]),
  (35581458644053887931343, 5, [(2, 1), (17, 1), (41, 1), (568151, 1), (44925942675193, 1)]),
  (23964610537191310276190549303, 5, [(2, 1), (336757, 1), (35581458644053887931343, 1)]),
  (862725979338887169942859774909, 2, [(2, 2), (3, 2), (23964610537191310276190549303, 1)]),
  (20705423504133292078628634597817, 5, [(2, 3), (3, 1), (862725979338887169942859774909, 1)]),
  (413244619895455989650825325680172591660047, 5, [(2, 1), (17, 1), (97, 1), (6051631, 1), (20705423504133292078628634597817, 1)]),
  (12397338596863679689524759770405177749801411, 2, [(2, 1), (3, 1), (5, 1), (413244619895455989650825325680172591660047, 1)]),
  (19173790298027098165721053155794528970226934547887232785722672956982046098136719667167519737147526097, 3, [(2, 4), (11, 3), (8389, 1), (38557, 1), (312289, 1), (1357291859799823621, 1), (529709925838459440593, 1), (12397338596863679689524759770405177749801411, 1)]),
  (39402006196394479212279040100143613805079739270465446667948293404245721771496870329047266088258938001861606973112319, 19, [(2, 1), (19, 1), (67, 1), (807145746439, 1), (19173790298027098165721053155794528970226934547887232785722672956982046098136719667167519737147526097, 1)])]

/-- Pratt certificates for the order of P-384 and every prime it depends on. -/
def n384Cert : List Step := [
  (3, 2, [(2, 1)]),
  (7, 3, [(2, 1), (3, 1)]),
  (13, 2, [(2, 2), (3, 1)]),
  (97, 5, [(2, 5), (3, 1)]),
  (1553, 3, [(2, 4), (97, 1)]),
  (19, 2, [(2, 1), (3, 2)]),
  (5, 2, [(2, 2)]),
  (151, 6, [(2, 1), (3, 1), (5, 2)]),
  (34429, 2, [(2, 2), (3, 1), (19, 1), (151, 1)]),
  (17, 3, [(2, 4)]),
  (31, 3, [(2, 1), (3, 1), (5, 1)]),
  (1117, 2, [(2, 2), (3, 2), (31, 1)]),
  (455737, 11, [(2, 3), (3, 1), (17, 1), (1117, 1)]),
  (154950581, 2, [(2, 2), (5, 1), (17, 1), (455737, 1)]),
  (79, 3, [(2, 1), (3, 1), (13, 1)]),
  (491, 2, [(2, 1), (5, 1), (7, 2)]),
  (11, 2, [(2, 1), (5, 1)]),
  (89, 3, [(2, 3), (11, 1)]),
  (3739, 7, [(2, 1), (3, 1), (7, 1), (89, 1)]),
  (290064143, 5, [(2, 1), (79, 1), (491, 1), (3739, 1)]),
  (120699720968197491947347, 3, [(2, 1), (3, 1), (13, 1), (34429, 1), (154950581, 1), (290064143, 1)]),
  (1124679999981664229965379347, 2, [(2, 1), (3, 1), (1553, 1), (120699720968197491947347, 1)]),
  (43, 3, [(2, 1), (3, 1), (7, 1)]),
  (173, 2, [(2, 2), (43, 1)]),
  (347, 2, [(2, 1), (173, 1)]),
  (29, 2, [(2, 2), (7, 1)]),
  (41, 6, [(2, 3), (5, 1)]),
  (179, 2, [(2, 1), (89, 1)]),
  (1276987, 2, [(2, 1), (3, 1), (29, 1), (41, 1), (179, 1)]),
  (163, 2, [(2, 1), (3, 4)]),
  (653, 2, [(2, 2), (163, 1)]),
  (16979, 2, [(2, 1), (13, 1), (653, 1)]),
  (181, 2, [(2, 2), (3, 2), (5, 1)]),
  (1087, 3, [(2, 1), (3, 1), (181, 1)]),
  (4349, 2, [(2, 2), (1087, 1)]),
  (8699, 2, [(2, 1), (4349, 1)]),
  (330563, 2, [(2, 1), (19, 1), (8699, 1)]),
  (1436833069313, 3, [(2, 8), (16979, 1), (330563, 1)]),
  (251, 6, [(2, 1), (5, 3)]),
  (248431, 3, [(2, 1), (3, 1), (5, 1), (7, 2), (13, 2)]),
  (113, 3, [(2, 4), (7, 1)]),
  (37447, 3, [(2, 1), (3, 1), (79, 2)]),
  (8463023, 5, [(2, 1), (113, 1), (37447, 1)]),
  (53, 2, [(2, 2), (13, 1)]),
  (107, 2, [(2, 1), (53, 1)]),
  (37, 2, [(2, 2), (3, 2)]),
  (149, 2, [(2, 2), (37, 1)]),
  (311, 17, [(2, 1), (5, 1), (31, 1)]),
  (881, 3, [(2, 4), (5, 1), (11, 1)]),
  (9863677, 5, [(2, 2), (3, 2), (311, 1), (881, 1)]),
  (37344768852931, 3, [(2, 1), (3, 1), (5, 1), (7, 1), (11, 2), (149, 1), (9863677, 1)]),
  (55942463741690639, 7, [(2, 1), (7, 1), (107, 1), (37344768852931, 1)]),
  (59, 2, [(2, 1), (29, 1)]),
  (64901, 2, [(2, 2), (5, 2), (11, 1), (59, 1)]),
  (23, 5, [(2, 1), (11, 1)]),
  (47, 5, [(2, 1), (23, 1)]),
  (659, 2, [(2, 1), (7, 1), (47, 1)]),
  (73, 5, [(2, 3), (3, 2)]),
  (233, 3, [(2, 3), (29, 1)]),
  (421, 2, [(2, 2), (3, 1), (5, 1), (7, 1)]),
  (272109983, 5, [(2, 1), (19, 1), (73, 1), (233, 1), (421, 1)]),
  (228572385721, 23, [(2, 3), (3, 1), (5, 1), (7, 1), (272109983, 1)]),
  (23314383343543, 3, [(2, 1), (3, 1), (17, 1), (228572385721, 1)]),
  (426632512014427833817, 11, [(2, 3), (3, 1), (13, 1), (89, 1), (659, 1), (23314383343543, 1)]),
  (1495199339761412565498084319, 6, [(2, 1), (3, 3), (64901, 1), (426632512014427833817, 1)]),
  (17942392077136950785977011829, 6, [(2, 2), (3, 1), (1495199339761412565498084319, 1)]),
  (1059392654943455286185473617842338478315215895509773412096307, 2, [(2, 1), (251, 1), (248431, 1), (8463023, 1), (55942463741690639, 1), (17942392077136950785977011829, 1)]),
  (3055465788140352002733946906144561090641249606160407884365391979704929268480326390471, 12, [(2, 1), (3, 1), (5, 1), (151, 1), (347, 1), (1276987, 1), (1436833069313, 1), (1059392654943455286185473617842338478315215895509773412096307, 1)]),
  (39402006196394479212279040100143613805079739270465446667946905279627659399113263569398956308152294913554433653942643, 2, [(2, 1), (3, 2), (7, 2), (13, 1), (1124679999981664229965379347, 1), (3055465788140352002733946906144561090641249606160407884365391979704929268480326390471, 1)])]

/-- Pratt certificates for the field prime of P-521 and every prime it depends on. -/
def p521Cert : List Step := [
  (3, 2, [(2, 1)]),
  (5, 2, [(2, 2)]),
  (11, 2, [(2, 1), (5, 1)]),
  (17, 3, [(2, 4)]),
  (31, 3, [(2, 1), (3, 1), (5, 1)]),
  (41, 6, [(2, 3), (5, 1)]),
  (13, 2, [(2, 2), (3, 1)]),
  (53, 2, [(2, 2), (13, 1)]),
  (131, 2, [(2, 1), (5, 1), (13, 1)]),
  (157, 5, [(2, 2), (3, 1), (13, 1)]),
  (521, 3, [(2, 3), (5, 1), (13, 1)]),
  (1613, 3, [(2, 2), (13, 1), (31, 1)]),
  (7, 3, [(2, 1), (3, 1)]),
  (2731, 3, [(2, 1), (3, 1), (5, 1), (7, 1), (13, 1)]),
  (8191, 17, [(2, 1), (3, 2), (5, 1), (7, 1), (13, 1)]),
  (42641, 3, [(2, 4), (5, 1), (13, 1), (41, 1)]),
  (51481, 17, [(2, 3), (3, 2), (5, 1), (11, 1), (13, 1)]),
  (257, 3, [(2, 8)]),
  (61681, 29, [(2, 4), (3, 1), (5, 1), (257, 1)]),
  (1051, 7, [(2, 1), (3, 1), (5, 2), (7, 1)]),
  (409891, 14, [(2, 1), (3, 1), (5, 1), (13, 1), (1051, 1)]),
  (858001, 17, [(2, 4), (3, 1), (5, 3), (11, 1), (13, 1)]),
  (5746001, 15, [(2, 4), (5, 3), (13, 2), (17, 1)]),
  (37, 2, [(2, 2), (3, 2)]),
  (79, 3, [(2, 1), (3, 1), (13, 1)]),
  (317, 2, [(2, 2), (79, 1)]),
  (7623851, 6, [(2, 1), (5, 2), (13, 1), (37, 1), (317, 1)]),
  (19, 2, [(2, 1), (3, 2)]),
  (23, 5, [(2, 1), (11, 1)]),
  (1381, 2, [(2, 2), (3, 1), (5, 1), (23, 1)]),
  (34110701, 15, [(2, 2), (5, 2), (13, 1), (19, 1), (1381, 1)]),
  (103, 5, [(2, 1), (3, 1), (17, 1)]),
  (1237, 2, [(2, 2), (3, 1), (103, 1)]),
  (49481, 3, [(2, 3), (5, 1), (1237, 1)]),
  (308761441, 17, [(2, 5), (3, 1), (5, 1), (13, 1), (49481, 1)]),
  (43, 3, [(2, 1), (3, 1), (7, 1)]),
  (173, 2, [(2, 2), (43, 1)]),
  (347, 2, [(2, 1), (173, 1)]),
  (277, 5, [(2, 2), (3, 1), (23, 1)]),
  (1663, 3, [(2, 1), (3, 1), (277, 1)]),
  (2400573761, 3, [(2, 6), (5, 1), (13, 1), (347, 1), (1663, 1)]),
  (397, 5, [(2, 2), (3, 2), (11, 1)]),
  (2995763, 2, [(2, 1), (7, 3), (11, 1), (397, 1)]),
  (65427463921, 17, [(2, 4), (3, 1), (5, 1), (7, 1), (13, 1), (2995763, 1)]),
  (683, 5, [(2, 1), (11, 1), (31, 1)]),
  (89, 3, [(2, 3), (11, 1)]),
  (179, 2, [(2, 1), (89, 1)]),
  (1433, 3, [(2, 3), (179, 1)]),
  (113, 3, [(2, 4), (7, 1)]),
  (227, 2, [(2, 1), (113, 1)]),
  (23609, 6, [(2, 3), (13, 1), (227, 1)]),
  (108140989558681, 17, [(2, 3), (3, 2), (5, 1), (13, 1), (683, 1), (1433, 1), (23609, 1)]),
  (151, 6, [(2, 1), (3, 1), (5, 2)]),
  (223, 3, [(2, 1), (3, 1), (37, 1)]),
  (8620289, 3, [(2, 8), (151, 1), (223, 1)]),
  (2534364967, 3, [(2, 1), (3, 1), (7, 2), (8620289, 1)]),
  (145295143558111, 7, [(2, 1), (3, 2), (5, 1), (7, 2), (13, 1), (2534364967, 1)]),
  (29, 2, [(2, 2), (7, 1)]),
  (59, 2, [(2, 1), (29, 1)]),
  (61, 2, [(2, 2), (3, 1), (5, 1)]),
  (28793, 3, [(2, 3), (59, 1), (61, 1)]),
  (3191, 11, [(2, 1), (5, 1), (11, 1), (29, 1)]),
  (109, 6, [(2, 2), (3, 3)]),
  (2437, 2, [(2, 2), (3, 1), (7, 1), (29, 1)]),
  (9211861, 2, [(2, 2), (3, 3), (5, 1), (7, 1), (2437, 1)]),
  (24098228377, 7, [(2, 3), (3, 1), (109, 1), (9211861, 1)]),
  (674750394557, 2, [(2, 2), (7, 1), (24098228377, 1)]),
  (361725589517273017, 17, [(2, 3), (3, 1), (7, 1), (3191, 1), (674750394557, 1)]),
  (173308343918874810521923841, 3, [(2, 8), (5, 1), (13, 1), (28793, 1), (361725589517273017, 1)]),
  (6864797660130609714981900799081393217269435300143305409394463459185543183397656052122559640661454554977296311391480858037121987999716643812574028291115057151, 3, [(2, 1), (3, 1), (5, 2), (11, 1), (17, 1), (31, 1), (41, 1), (53, 1), (131, 1), (157, 1), (521, 1), (1613, 1), (2731, 1), (8191, 1), (42641, 1), (51481, 1), (61681, 1), (409891, 1), (858001, 1), (5746001, 1), (7623851, 1), (34110701, 1), (308761441, 1), (2400573761, 1), (65427463921, 1), (108140989558681, 1), (145295143558111, 1), (173308343918874810521923841, 1)])]

theorem of_cert {ss : List Step} {p : Nat} (h : (checkAll [2] ss).any (·.contains p) = true) : p.Prime := by
  cases hc : checkAll [2] ss with
  | none => rw [hc] at h; simp at h
  | some out =>
    rw [hc] at h
    exact checkAll_sound ss [2] out (by simpa using Nat.prime_two) hc p (by simpa using h)

theorem p224_p_prime : p224.p.Prime := of_cert (ss := p224Cert) (by decide +kernel)
theorem p224_n_prime : p224.n.Prime := of_cert (ss := n224Cert) (by decide +kernel)
theorem p256_p_prime : p256.p.Prime := of_cert (ss := p256Cert) (by decide +kernel)
theorem p256_n_prime : p256.n.Prime := of_cert (ss := n256Cert) (by decide +kernel)
theorem p384_p_prime : p384.p.Prime := of_cert (ss := p384Cert) (by decide +kernel)
theorem p384_n_prime : p384.n.Prime := of_cert (ss := n384Cert) (by decide +kernel)
theorem p521_p_prime : p521.p.Prime := of_cert (ss := p521Cert) (by decide +kernel)

theorem p224_lawful : Lawful p224 :=
  ⟨p224_p_prime, by decide +kernel, p224_n_prime, by decide +kernel, by decide +kernel, by decide +kernel, by decide +kernel, by decide +kernel⟩

theorem p256_lawful : Lawful p256 :=
  ⟨p256_p_prime, by decide +kernel, p256_n_prime, by decide +kernel, by decide +kernel, by decide +kernel, by decide +kernel, by decide +kernel⟩

theorem p384_lawful : Lawful p384 :=
  ⟨p384_p_prime, by decide +kernel, p384_n_prime, by decide +kernel, by decide +kernel, by decide +kernel, by decide +kernel, by decide +kernel⟩

theorem sm2p256_lawful : Lawful sm2p256 :=
  ⟨P_prime, by decide +kernel, N_prime, by decide +kernel, by decide +kernel, by decide +kernel, by decide +kernel, by decide +kernel⟩

theorem p521_n_prime : p521.n.Prime := by
  rw [show p521.n = order521 by decide +kernel]; exact order521_prime

theorem p521_lawful : Lawful p521 :=
  ⟨p521_p_prime, by decide +kernel, p521_n_prime, by decide +kernel, by decide +kernel, by decide +kernel, by decide +kernel, by decide +kernel⟩

end MCrypto.Ecdsa
