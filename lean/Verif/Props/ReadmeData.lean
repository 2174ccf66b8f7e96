import Verif.Spec.Server
/-
The airports of the United States in misc/airports.sh.
-/
namespace Starbow.Props
open Starbow.Collation Starbow.Spec Starbow.Storage Starbow.Server

/-- what the program's collations use of a line of misc/airports.sh: the code (its bytes as digits in base 256), the height and the time zone (its number in `timeZones`) -/
structure Airport where
  iata : Nat
  height : Int
  tz : Nat

/-- the time zones of the United States in misc/airports.sh -/
def timeZones : List Bytes := [asc "America/Chicago", asc "America/New_York", asc "America/Anchorage", asc "America/Los_Angeles", asc "America/Denver", asc "Pacific/Honolulu", asc "America/Phoenix", asc "Asia/Chongqing"]

/-- the bytes of a number in base 256; `n` is an upper bound of their number -/
def baseBytes : Nat → Nat → Bytes
  | 0, _ => []
  | n + 1, x => if x = 0 then [] else baseBytes n (x / 256) ++ [BitVec.ofNat 8 (x % 256)]

/-- the decimal digits of a number; `n` is an upper bound of their number -/
def digitBytes : Nat → Nat → Bytes
  | 0, _ => []
  | n + 1, x => (if x < 10 then [] else digitBytes n (x / 10)) ++ [BitVec.ofNat 8 (48 + x % 10)]

/-- a whole number in decimal, as in the file -/
def decimalText (h : Int) : Bytes := if h < 0 then 0x2d :: digitBytes 20 h.natAbs else digitBytes 20 h.natAbs

/-- the code -/
def Airport.code (a : Airport) : Bytes := baseBytes 4 a.iata

/-- its fields; the name of the airport, in which no collation is interested, is left out -/
def Airport.fields (a : Airport) : List FV :=
  [⟨asc "country", asc "United States"⟩, ⟨asc "iata", a.code⟩, ⟨asc "height", decimalText a.height⟩, ⟨asc "tz", timeZones.getD a.tz []⟩]

/-- `1478566442000000|country=United States|iata=…|height=…|tz=…` -/
def Airport.line (a : Airport) : Line := ⟨asc "1478566442000000", 0x7c, a.fields⟩

/-- lines 1 to 100 of those with `country=United States` -/
def us0 : List Airport := [
  ⟨0x4b414252, 1302, 0⟩, ⟨0x4b415047, 57, 1⟩, ⟨0x4b414249, 1791, 0⟩, ⟨0x4b445953, 1789, 0⟩, ⟨0x5041444b, 18, 2⟩, ⟨0x4b414453, 644, 0⟩, ⟨0x4b41494b, 529, 1⟩, ⟨0x50414b48, 44, 2⟩, ⟨0x5046414b, 30, 2⟩, ⟨0x4b414b52, 1067, 1⟩, -- KABR KAPG KABI KDYS PADK KADS KAIK PAKH PFAK KAKR
  ⟨0x4b43414b, 1228, 1⟩, ⟨0x4b5141, 0, 2⟩, ⟨0x4b454554, 586, 0⟩, ⟨0x5041554b, 10, 2⟩, ⟨0x4b4e475a, 10, 3⟩, ⟨0x4b414c4d, 4200, 4⟩, ⟨0x4b484d4e, 4093, 4⟩, ⟨0x4b414c53, 7539, 4⟩, ⟨0x4b414259, 197, 1⟩, ⟨0x4b414c42, 285, 1⟩, -- KCAK KQA KEET PAUK KNGZ KALM KHMN KALS KABY KALB
  ⟨0x4b414251, 5355, 4⟩, ⟨0x354138, 66, 2⟩, ⟨0x414c585f, 1, 1⟩, ⟨0x4b414558, 89, 0⟩, ⟨0x4b455346, 112, 0⟩, ⟨0x4b414c49, 178, 0⟩, ⟨0x5046414c, 441, 2⟩, ⟨0x4154574e, 338, 1⟩, ⟨0x4b414245, 393, 1⟩, ⟨0x4b414941, 3931, 4⟩, -- KABQ 5A8 ALX_ KAEX KESF KALI PFAL ATWN KABE KAIA
  ⟨0x4b41504e, 689, 1⟩, ⟨0x4b414f4f, 1504, 1⟩, ⟨0x4b4c5453, 1382, 0⟩, ⟨0x4b414d41, 3607, 0⟩, ⟨0x5041464d, 334, 2⟩, ⟨0x4b41434a, 468, 1⟩, ⟨0x41435254, 0, 3⟩, ⟨0x50414b50, 2103, 2⟩, ⟨0x50414544, 212, 2⟩, ⟨0x50414c48, 71, 2⟩, -- KAPN KAOO KLTS KAMA PAFM KACJ ACRT PAKP PAED PALH
  ⟨0x50414d52, 137, 2⟩, ⟨0x50414e43, 152, 2⟩, ⟨0x4b414e44, 782, 1⟩, ⟨0x4b4c4258, 25, 0⟩, ⟨0x4b414e51, 995, 1⟩, ⟨0x5041474e, 0, 2⟩, ⟨0x50414e49, 88, 2⟩, ⟨0x4b494b56, 910, 0⟩, ⟨0x4b415242, 839, 1⟩, ⟨0x414e4e41, 0, 1⟩, -- PAMR PANC KAND KLBX KANQ PAGN PANI KIKV KARB ANNA
  ⟨0x4b414e50, 34, 1⟩, ⟨0x50414e54, 119, 2⟩, ⟨0x4b414e42, 612, 0⟩, ⟨0x4b414e45, 912, 0⟩, ⟨0x50414e56, 309, 2⟩, ⟨0x4b414146, 20, 1⟩, ⟨0x4b415457, 680, 0⟩, ⟨0x4b414356, 221, 3⟩, ⟨0x50415243, 2092, 2⟩, ⟨0x4b41444d, 762, 0⟩, -- KANP PANT KANB KANE PANV KAAF KATW KACV PARC KADM
  ⟨0x4b474b59, 628, 0⟩, ⟨0x4b41564c, 2165, 1⟩, ⟨0x4b415345, 7820, 4⟩, ⟨0x4b415354, 15, 3⟩, ⟨0x4b41484e, 808, 1⟩, ⟨0x4b4d4d49, 874, 1⟩, ⟨0x4b554e49, 766, 1⟩, ⟨0x5041414b, 56, 2⟩, ⟨0x4b41544c, 1026, 1⟩, ⟨0x4b464643, 808, 1⟩, -- KGKY KAVL KASE KAST KAHN KMMI KUNI PAAK KATL KFFC
  ⟨0x4b465459, 841, 1⟩, ⟨0x4b50444b, 1003, 1⟩, ⟨0x4b525959, 1041, 1⟩, ⟨0x4b414359, 75, 1⟩, ⟨0x50415451, 96, 2⟩, ⟨0x4b41554f, 777, 0⟩, ⟨0x4b415547, 352, 1⟩, ⟨0x4b444e4c, 423, 1⟩, ⟨0x4b415454, 0, 0⟩, ⟨0x4b415553, 542, 0⟩, -- KFTY KPDK KRYY KACY PATQ KAUO KAUG KDNL KATT KAUS
  ⟨0x4b41564f, 160, 1⟩, ⟨0x4241494e, 0, 3⟩, ⟨0x4b424745, 141, 1⟩, ⟨0x4b42464c, 507, 3⟩, ⟨0x4b354232, 433, 1⟩, ⟨0x4b425749, 146, 1⟩, ⟨0x4b4d544e, 22, 1⟩, ⟨0x4b424752, 192, 1⟩, ⟨0x4b424842, 83, 1⟩, ⟨0x4b444c4c, 979, 0⟩, -- KAVO BAIN KBGE KBFL K5B2 KBWI KMTN KBGR KBHB KDLL
  ⟨0x5048424b, 23, 5⟩, ⟨0x4b485941, 55, 1⟩, ⟨0x50414252, 44, 2⟩, ⟨0x50414241, 2, 2⟩, ⟨0x4b424f57, 125, 1⟩, ⟨0x4b475651, 914, 1⟩, ⟨0x4b425452, 70, 0⟩, ⟨0x4b424445, 1086, 0⟩, ⟨0x4b424654, 500, 1⟩, ⟨0x4b4e4243, 37, 1⟩] -- PHBK KHYA PABR PABA KBOW KGVQ KBTR KBDE KBFT KNBC

/-- lines 101 to 200 of those with `country=United States` -/
def us1 : List Airport := [
  ⟨0x4b424d54, 32, 0⟩, ⟨0x4b425054, 15, 0⟩, ⟨0x4b424650, 1253, 1⟩, ⟨0x50415742, 359, 2⟩, ⟨0x4b424b57, 2504, 1⟩, ⟨0x4b424544, 133, 1⟩, ⟨0x4b484d5a, 1162, 1⟩, ⟨0x4b424c56, 459, 0⟩, ⟨0x4b424c49, 170, 3⟩, ⟨0x4b424a49, 1391, 0⟩, -- KBMT KBPT KBFP PAWB KBKW KBED KHMZ KBLV KBLI KBJI
  ⟨0x4b42444e, 3460, 3⟩, ⟨0x4b584e41, 1287, 0⟩, ⟨0x4b454b59, 700, 0⟩, ⟨0x50414245, 121, 2⟩, ⟨0x50414254, 644, 2⟩, ⟨0x4b425659, 107, 1⟩, ⟨0x5041424d, 663, 2⟩, ⟨0x4b365330, 4492, 4⟩, ⟨0x4b42494c, 3652, 4⟩, ⟨0x4b424958, 33, 0⟩, -- KBDN KXNA KEKY PABE PABT KBVY PABM K6S0 KBIL KBIX
  ⟨0x42494e47, 850, 1⟩, ⟨0x4b42474d, 1636, 1⟩, ⟨0x4b42484d, 644, 0⟩, ⟨0x4b424953, 1661, 0⟩, ⟨0x4b424944, 108, 1⟩, ⟨0x4b424d47, 846, 1⟩, ⟨0x4b424d49, 871, 0⟩, ⟨0x424c46, 2857, 1⟩, ⟨0x4b425948, 254, 0⟩, ⟨0x4b424c48, 399, 3⟩, -- BING KBGM KBHM KBIS KBID KBMG KBMI BLF KBYH KBLH
  ⟨0x4b424354, 13, 1⟩, ⟨0x4b424f49, 2871, 4⟩, ⟨0x4b425853, 520, 3⟩, ⟨0x424f5354, 0, 1⟩, ⟨0x4b424f53, 19, 1⟩, ⟨0x4b425655, 2201, 6⟩, ⟨0x4b424455, 5288, 4⟩, ⟨0x4b425747, 547, 0⟩, ⟨0x4b425a4e, 4500, 4⟩, ⟨0x4b424644, 2143, 1⟩, -- KBCT KBOI KBXS BOST KBOS KBVU KBDU KBWG KBZN KBFD
  ⟨0x50485346, 6190, 5⟩, ⟨0x4b425244, 1226, 0⟩, ⟨0x4b424247, 1302, 0⟩, ⟨0x4b424b44, 1284, 0⟩, ⟨0x4b505754, 444, 3⟩, ⟨0x50464b54, 35, 2⟩, ⟨0x4b424d43, 4229, 4⟩, ⟨0x4b545249, 1519, 1⟩, ⟨0x424b58, 1648, 0⟩, ⟨0x4b424a43, 5670, 4⟩, -- PHSF KBRD KBBG KBKD KPWT PFKT KBMC KTRI BKX KBJC
  ⟨0x4b42524f, 22, 0⟩, ⟨0x4b42514b, 26, 1⟩, ⟨0x4b535349, 19, 1⟩, ⟨0x4b434644, 367, 0⟩, ⟨0x4b424345, 7590, 4⟩, ⟨0x4b42584b, 1033, 6⟩, ⟨0x5041424c, 31, 2⟩, ⟨0x4b424b46, 5662, 4⟩, ⟨0x42425546, 0, 1⟩, ⟨0x4b425546, 724, 1⟩, -- KBRO KBQK KSSI KCFD KBCE KBXK PABL KBKF BBUF KBUF
  ⟨0x494650, 695, 6⟩, ⟨0x4b425552, 778, 3⟩, ⟨0x4b42524c, 698, 0⟩, ⟨0x4b425456, 335, 1⟩, ⟨0x4b425555, 780, 0⟩, ⟨0x4b425559, 617, 1⟩, ⟨0x4b424e4f, 4159, 3⟩, ⟨0x4b414753, 144, 1⟩, ⟨0x4b42544d, 5550, 4⟩, ⟨0x4b434457, 172, 1⟩, -- IFP KBUR KBRL KBTV KBUU KBUY KBNO KAGS KBTM KCDW
  ⟨0x4b43584c, 4, 3⟩, ⟨0x4b435a4c, 651, 1⟩, ⟨0x36364341, 320, 3⟩, ⟨0x4b43444e, 302, 1⟩, ⟨0x4b564f4b, 912, 0⟩, ⟨0x4b414457, 280, 1⟩, ⟨0x4b434e49, 1219, 1⟩, ⟨0x4b434749, 342, 0⟩, ⟨0x50414c55, 12, 2⟩, ⟨0x50414548, 541, 2⟩, -- KCXL KCZL 66CA KCDN KVOK KADW KCNI KCGI PALU PAEH
  ⟨0x5041435a, 457, 2⟩, ⟨0x3138415a, 2568, 6⟩, ⟨0x4b434152, 626, 1⟩, ⟨0x4b434e4d, 3295, 4⟩, ⟨0x4b435251, 328, 3⟩, ⟨0x4b43544a, 1165, 1⟩, ⟨0x4b565043, 759, 1⟩, ⟨0x4b43475a, 1464, 6⟩, ⟨0x4b435052, 5347, 4⟩, ⟨0x4b415658, 1602, 3⟩, -- PACZ 18AZ KCAR KCNM KCRQ KCTJ KVPC KCGZ KCPR KAVX
  ⟨0x4b434443, 5622, 4⟩, ⟨0x4b43444b, 11, 1⟩, ⟨0x4b434944, 869, 0⟩, ⟨0x50414345, 937, 2⟩, ⟨0x4b505950, 595, 0⟩, ⟨0x4b434452, 3297, 4⟩, ⟨0x50414349, 544, 2⟩, ⟨0x4b434d49, 754, 0⟩, ⟨0x4b434844, 1243, 6⟩, ⟨0x4b435658, 669, 1⟩] -- KCDC KCDK KCID PACE KPYP KCDR PACI KCMI KCHD KCVX

/-- lines 201 to 300 of those with `country=United States` -/
def us2 : List Airport := [
  ⟨0x4b434853, 45, 1⟩, ⟨0x4b435257, 981, 1⟩, ⟨0x4b43484f, 639, 1⟩, ⟨0x4b434c54, 748, 1⟩, ⟨0x4b434841, 683, 1⟩, ⟨0x5041434b, 40, 2⟩, ⟨0x4b434c53, 177, 3⟩, ⟨0x50464342, 72, 2⟩, ⟨0x4b4e4b54, 29, 1⟩, ⟨0x50415641, 75, 2⟩, -- KCHS KCRW KCHO KCLT KCHA PACK KCLS PFCB KNKT PAVA
  ⟨0x4b435953, 6156, 4⟩, ⟨0x4b50574b, 647, 0⟩, ⟨0x4b434758, 585, 0⟩, ⟨0x4b4d4457, 620, 0⟩, ⟨0x4b4f5244, 668, 0⟩, ⟨0x4b55474e, 727, 0⟩, ⟨0x4b434546, 241, 1⟩, ⟨0x4b434943, 238, 3⟩, ⟨0x4b434453, 1954, 0⟩, ⟨0x4b4e4944, 2283, 3⟩, -- KCYS KPWK KCGX KMDW KORD KUGN KCEF KCIC KCDS KNID
  ⟨0x4b363253, 4317, 3⟩, ⟨0x50414348, 243, 2⟩, ⟨0x4b435647, 896, 1⟩, ⟨0x4b4c554b, 483, 1⟩, ⟨0x50414352, 613, 2⟩, ⟨0x4b434b42, 1217, 1⟩, ⟨0x4b434b56, 550, 0⟩, ⟨0x5041434c, 552, 2⟩, ⟨0x4b434c57, 70, 1⟩, ⟨0x4b434555, 891, 1⟩, -- K62S PACH KCVG KLUK PACR KCKB KCKV PACL KCLW KCEU
  ⟨0x43434c4e, 0, 1⟩, ⟨0x4b424b4c, 583, 1⟩, ⟨0x4b434c45, 791, 1⟩, ⟨0x4b484449, 874, 1⟩, ⟨0x434c544e, 604, 1⟩, ⟨0x4b435749, 708, 0⟩, ⟨0x4b43564e, 4216, 4⟩, ⟨0x4b435653, 4295, 4⟩, ⟨0x4b4d5153, 660, 1⟩, ⟨0x4b434f46, 8, 1⟩, -- CCLN KBKL KCLE KHDI CLTN KCWI KCVN KCVS KMQS KCOF
  ⟨0x4b434f44, 5102, 4⟩, ⟨0x4b434f45, 2320, 3⟩, ⟨0x5041414c, 20, 2⟩, ⟨0x50414344, 96, 2⟩, ⟨0x4b4f4542, 959, 1⟩, ⟨0x4b434c4c, 321, 0⟩, ⟨0x4b43424d, 219, 0⟩, ⟨0x4b434f53, 6187, 4⟩, ⟨0x4b434145, 236, 1⟩, ⟨0x4b434f55, 889, 0⟩, -- KCOD KCOE PAAL PACD KOEB KCLL KCBM KCOS KCAE KCOU
  ⟨0x4b475452, 264, 0⟩, ⟨0x4b434d48, 815, 1⟩, ⟨0x4b435347, 397, 1⟩, ⟨0x4b4c434b, 744, 1⟩, ⟨0x4b4f5355, 905, 1⟩, ⟨0x4b545a52, 905, 1⟩, ⟨0x4b434352, 26, 3⟩, ⟨0x4b4a5146, 705, 1⟩, ⟨0x4b565653, 1267, 1⟩, ⟨0x4b43584f, 245, 0⟩, -- KGTR KCMH KCSG KLCK KOSU KTZR KCCR KJQF KVVS KCXO
  ⟨0x4b503038, 1574, 6⟩, ⟨0x4b434b46, 310, 1⟩, ⟨0x50414356, 48, 2⟩, ⟨0x4b414a52, 1448, 1⟩, ⟨0x4b435250, 44, 0⟩, ⟨0x4b4e4750, 18, 0⟩, ⟨0x4b43455a, 5918, 4⟩, ⟨0x4b43564f, 250, 3⟩, ⟨0x4b503532, 3550, 6⟩, ⟨0x4b434f54, 474, 0⟩, -- KP08 KCKF PACV KAJR KCRP KNGP KCEZ KCVO KP52 KCOT
  ⟨0x4b434543, 57, 3⟩, ⟨0x4b434557, 213, 0⟩, ⟨0x4b435459, 42, 1⟩, ⟨0x4b434743, 9, 1⟩, ⟨0x4b4d4943, 869, 0⟩, ⟨0x4b434245, 775, 1⟩, ⟨0x4b435442, 3854, 4⟩, ⟨0x4b444854, 3991, 0⟩, ⟨0x4b444657, 607, 0⟩, ⟨0x4b44414c, 487, 0⟩, -- KCEC KCEW KCTY KCGC KMIC KCBE KCTB KDHT KDFW KDAL
  ⟨0x4b4e4657, 650, 0⟩, ⟨0x4b524244, 201, 0⟩, ⟨0x4b544b49, 585, 0⟩, ⟨0x4b444e4e, 709, 1⟩, ⟨0x4b445852, 458, 1⟩, ⟨0x4b444e56, 696, 0⟩, ⟨0x4b554447, 192, 1⟩, ⟨0x4b445741, 100, 3⟩, ⟨0x4b444142, 34, 1⟩, ⟨0x4b444159, 1009, 1⟩, -- KNFW KRBD KTKI KDNN KDXR KDNV KUDG KDWA KDAB KDAY
  ⟨0x4b46464f, 823, 1⟩, ⟨0x4b4d4759, 957, 1⟩, ⟨0x50415343, 64, 2⟩, ⟨0x4b444543, 682, 0⟩, ⟨0x50414445, 21, 2⟩, ⟨0x4b444c46, 1082, 0⟩, ⟨0x4b445254, 1002, 0⟩, ⟨0x4b444544, 79, 1⟩, ⟨0x4b345539, 6007, 4⟩, ⟨0x50414249, 1291, 2⟩] -- KFFO KMGY PASC KDEC PADE KDLF KDRT KDED K4U9 PABI

/-- lines 301 to 400 of those with `country=United States` -/
def us3 : List Airport := [
  ⟨0x4b445441, 4759, 4⟩, ⟨0x44454e58, 5333, 4⟩, ⟨0x4b415041, 5883, 4⟩, ⟨0x4b44454e, 5431, 4⟩, ⟨0x4b445249, 202, 0⟩, ⟨0x4b44534d, 958, 0⟩, ⟨0x4b445453, 23, 0⟩, ⟨0x4b444554, 626, 1⟩, ⟨0x4b445457, 645, 1⟩, ⟨0x4b594950, 716, 1⟩, -- KDTA DENX KAPA KDEN KDRI KDSM KDTS KDET KDTW KYIP
  ⟨0x4b44564c, 1445, 0⟩, ⟨0x4b44494b, 2592, 4⟩, ⟨0x5041444c, 74, 2⟩, ⟨0x50484448, 14, 5⟩, ⟨0x4b444443, 2594, 0⟩, ⟨0x4b44484e, 401, 0⟩, ⟨0x4b44474c, 4173, 6⟩, ⟨0x4b445148, 257, 1⟩, ⟨0x4b445547, 4154, 6⟩, ⟨0x4b444f56, 28, 1⟩, -- KDVL KDIK PADL PHDH KDDC KDHN KDGL KDQH KDUG KDOV
  ⟨0x4b44524d, 668, 1⟩, ⟨0x4b44554a, 1817, 1⟩, ⟨0x4b44424e, 311, 1⟩, ⟨0x4b444251, 1076, 0⟩, ⟨0x4b444c48, 1428, 0⟩, ⟨0x4b445543, 1114, 0⟩, ⟨0x4b444b4b, 693, 1⟩, ⟨0x4b44524f, 6685, 4⟩, ⟨0x4b454756, 1642, 0⟩, ⟨0x50414547, 908, 2⟩, -- KDRM KDUJ KDBN KDBQ KDLH KDUC KDKK KDRO KEGV PAEG
  ⟨0x4b364439, 606, 1⟩, ⟨0x4b353743, 860, 0⟩, ⟨0x4b45534e, 72, 1⟩, ⟨0x4b45504d, 45, 1⟩, ⟨0x4b4f5253, 31, 3⟩, ⟨0x4b454155, 913, 0⟩, ⟨0x4b46434d, 906, 0⟩, ⟨0x4b454457, 2302, 3⟩, ⟨0x50414545, 15, 2⟩, ⟨0x4b454648, 585, 0⟩, -- K6D9 K57C KESN KEPM KORS KEAU KFCM KEDW PAEE KEFH
  ⟨0x50414949, 92, 2⟩, ⟨0x4b534545, 388, 3⟩, ⟨0x4b4e4a4b, -42, 3⟩, ⟨0x4b454c44, 277, 0⟩, ⟨0x4b424946, 3948, 4⟩, ⟨0x4b454c50, 3958, 4⟩, ⟨0x5041454c, 0, 2⟩, ⟨0x5046454c, 162, 2⟩, ⟨0x4b454347, 12, 1⟩, ⟨0x4b454b4e, 1987, 1⟩, -- PAII KSEE KNJK KELD KBIF KELP PAEL PFEL KECG KEKN
  ⟨0x4b454b4f, 5140, 3⟩, ⟨0x4b413530, 6145, 4⟩, ⟨0x4b454c4d, 954, 1⟩, ⟨0x4b454c4f, 1456, 0⟩, ⟨0x4b454c59, 6259, 3⟩, ⟨0x5041454d, 13, 2⟩, ⟨0x4b435a47, 833, 1⟩, ⟨0x4b454e44, 1307, 0⟩, ⟨0x57413737, 738, 3⟩, ⟨0x4b455249, 733, 1⟩, -- KEKO KA50 KELM KELO KELY PAEM KCZG KEND WA77 KERI
  ⟨0x4b455343, 609, 1⟩, ⟨0x4b455546, 285, 0⟩, ⟨0x4b455547, 374, 3⟩, ⟨0x4b455657, 7143, 4⟩, ⟨0x4b455656, 418, 0⟩, ⟨0x4b504145, 606, 3⟩, ⟨0x50414549, 548, 2⟩, ⟨0x50414641, 434, 2⟩, ⟨0x4b535555, 62, 3⟩, ⟨0x4b4e464c, 3934, 3⟩, -- KESC KEUF KEUG KEVW KEVV KPAE PAEI PAFA KSUU KNFL
  ⟨0x4b464d48, 131, 1⟩, ⟨0x50414b46, 20, 2⟩, ⟨0x4b464152, 902, 0⟩, ⟨0x4b465247, 82, 1⟩, ⟨0x4b464d4e, 5506, 4⟩, ⟨0x4b464159, 189, 1⟩, ⟨0x4b465956, 1251, 0⟩, ⟨0x4b464459, 819, 1⟩, ⟨0x4b464954, 348, 1⟩, ⟨0x4b465a47, 365, 1⟩, -- KFMH PAKF KFAR KFRG KFMN KFAY KFYV KFDY KFIT KFZG
  ⟨0x4b58464c, 33, 1⟩, ⟨0x4b464c47, 7015, 6⟩, ⟨0x4b464e54, 782, 1⟩, ⟨0x4b464c4f, 146, 1⟩, ⟨0x4b464c44, 808, 0⟩, ⟨0x4b4c5346, 232, 1⟩, ⟨0x4b504f42, 217, 1⟩, ⟨0x4b464252, 7038, 4⟩, ⟨0x4b464353, 5838, 4⟩, ⟨0x4b464e4c, 5016, 4⟩, -- KXFL KFLG KFNT KFLO KFLD KLSF KPOB KFBR KFCS KFNL
  ⟨0x4b464f44, 1157, 0⟩, ⟨0x4b475442, 690, 1⟩, ⟨0x4b464146, 12, 1⟩, ⟨0x4b484c52, 924, 0⟩, ⟨0x4b464855, 4719, 6⟩, ⟨0x4b425953, 2350, 3⟩, ⟨0x4b46544b, 756, 1⟩, ⟨0x46544c44, 0, 1⟩, ⟨0x4b464c4c, 9, 1⟩, ⟨0x4b465845, 13, 1⟩] -- KFOD KGTB KFAF KHLR KFHU KBYS KFTK FTLD KFLL KFXE

/-- lines 401 to 500 of those with `country=United States` -/
def us4 : List Airport := [
  ⟨0x4b464c56, 772, 0⟩, ⟨0x4b54424e, 1159, 0⟩, ⟨0x4b475246, 302, 3⟩, ⟨0x4b464d45, 150, 1⟩, ⟨0x4b464d59, 17, 1⟩, ⟨0x4b525357, 30, 1⟩, ⟨0x4b4f4152, 134, 3⟩, ⟨0x4b465052, 23, 1⟩, ⟨0x4b504f45, 330, 0⟩, ⟨0x50414652, 378, 2⟩, -- KFLV KTBN KGRF KFME KFMY KRSW KOAR KFPR KPOE PAFR
  ⟨0x4b465249, 1063, 0⟩, ⟨0x4b465349, 1189, 0⟩, ⟨0x4b46534d, 469, 0⟩, ⟨0x4b465354, 3011, 0⟩, ⟨0x50414642, 454, 2⟩, ⟨0x50415754, 35, 2⟩, ⟨0x4b534d44, 834, 1⟩, ⟨0x4b465741, 815, 1⟩, ⟨0x4b414657, 722, 0⟩, ⟨0x4b465457, 710, 0⟩, -- KFRI KFSI KFSM KFST PAFB PAWT KSMD KFWA KAFW KFTW
  ⟨0x50465955, 433, 2⟩, ⟨0x4b465a49, 752, 1⟩, ⟨0x4b464654, 812, 1⟩, ⟨0x4b464b4c, 1540, 1⟩, ⟨0x4b465645, 988, 1⟩, ⟨0x4b464154, 336, 3⟩, ⟨0x46524944, 0, 3⟩, ⟨0x4b464852, 113, 3⟩, ⟨0x4b495a47, 455, 1⟩, ⟨0x4b46554c, 96, 3⟩, -- PFYU KFZI KFFT KFKL KFVE KFAT FRID KFHR KIZG KFUL
  ⟨0x50414e52, 0, 2⟩, ⟨0x4b474144, 569, 0⟩, ⟨0x4b474e56, 152, 1⟩, ⟨0x4b47564c, 1276, 1⟩, ⟨0x4b474149, 0, 1⟩, ⟨0x50414741, 152, 2⟩, ⟨0x4b475151, 1224, 1⟩, ⟨0x4b475550, 6472, 4⟩, ⟨0x4b474c53, 6, 0⟩, ⟨0x5041474d, 27, 2⟩, -- PANR KGAD KGNV KGVL KGAI PAGA KGQQ KGUP KGLS PAGM
  ⟨0x4b47434b, 2891, 0⟩, ⟨0x4b475959, 591, 0⟩, ⟨0x4b474544, 50, 1⟩, ⟨0x4b47454f, 958, 1⟩, ⟨0x4b474745, 40, 1⟩, ⟨0x4b475455, 790, 0⟩, ⟨0x4b453633, 789, 6⟩, ⟨0x4b474343, 4365, 4⟩, ⟨0x4b474457, 774, 1⟩, ⟨0x30374d54, 2762, 4⟩, -- KGCK KGYY KGED KGEO KGGE KGTU KE63 KGCC KGDW 07MT
  ⟨0x4b474757, 2296, 4⟩, ⟨0x4b474555, 1071, 6⟩, ⟨0x4b474456, 749, 4⟩, ⟨0x4b4e4255, 653, 0⟩, ⟨0x4b475342, 110, 1⟩, ⟨0x5041474c, 59, 2⟩, ⟨0x4b474c44, 3656, 4⟩, ⟨0x4b475952, 968, 6⟩, ⟨0x4b47434e, 6609, 6⟩, ⟨0x4b47464b, 845, 0⟩, -- KGGW KGEU KGDV KNBU KGSB PAGL KGLD KGYR KGCN KGFK
  ⟨0x4b475249, 1847, 0⟩, ⟨0x4b474a54, 4858, 4⟩, ⟨0x4b434b43, 1799, 0⟩, ⟨0x4b47505a, 413, 0⟩, ⟨0x4b475252, 794, 1⟩, ⟨0x4b4d5748, 1185, 3⟩, ⟨0x4b474e54, 6537, 4⟩, ⟨0x4b474244, 1887, 0⟩, ⟨0x4b475446, 3677, 4⟩, ⟨0x4b475242, 695, 0⟩, -- KGRI KGJT KCKC KGPZ KGRR KMWH KGNT KGBD KGTF KGRB
  ⟨0x37464c34, 75, 1⟩, ⟨0x4b47534f, 925, 1⟩, ⟨0x4b475654, 535, 0⟩, ⟨0x474c48, 131, 0⟩, ⟨0x4b475350, 964, 1⟩, ⟨0x4b504756, 27, 1⟩, ⟨0x4b47574f, 162, 0⟩, ⟨0x4b474f4e, 9, 1⟩, ⟨0x4b4a4b41, 17, 0⟩, ⟨0x4b475054, 28, 0⟩, -- 7FL4 KGSO KGVT GLH KGSP KPGV KGWO KGON KJKA KGPT
  ⟨0x5041474b, 1580, 2⟩, ⟨0x4b475543, 7678, 4⟩, ⟨0x50414753, 34, 2⟩, ⟨0x4b534157, 1221, 1⟩, ⟨0x4b484752, 704, 1⟩, ⟨0x4b53554e, 5320, 4⟩, ⟨0x5041484e, 15, 2⟩, ⟨0x4b48414f, 633, 1⟩, ⟨0x4b344137, 874, 1⟩, ⟨0x4b4c4649, 11, 1⟩, -- PAGK KGUC PAGS KSAW KHGR KSUN PAHN KHAO K4A7 KLFI
  ⟨0x5048484e, 78, 5⟩, ⟨0x4b434d58, 1095, 1⟩, ⟨0x4b48524c, 36, 0⟩, ⟨0x48425247, 320, 1⟩, ⟨0x4b435859, 347, 1⟩, ⟨0x4b4d4454, 310, 1⟩, ⟨0x4b48524f, 1365, 0⟩, ⟨0x4b484644, 18, 1⟩, ⟨0x4b504942, 298, 0⟩, ⟨0x4b484247, 151, 0⟩] -- PHHN KCMX KHRL HBRG KCXY KMDT KHRO KHFD KPIB KHBG

/-- lines 501 to 600 of those with `country=United States` -/
def us5 : List Airport := [
  ⟨0x4b485652, 2590, 4⟩, ⟨0x4b484852, 66, 3⟩, ⟨0x4b48444e, 6602, 4⟩, ⟨0x4b485953, 1998, 0⟩, ⟨0x4b485744, 52, 3⟩, ⟨0x485a4c54, 1689, 1⟩, ⟨0x4b485a4c, 1603, 1⟩, ⟨0x50414856, 1263, 2⟩, ⟨0x4b484c4e, 3877, 4⟩, ⟨0x4b484e44, 1881, 3⟩, -- KHVR KHHR KHDN KHYS KHWD HZLT KHZL PAHV KHLN KHND
  ⟨0x4b484942, 1353, 0⟩, ⟨0x4b484b59, 1189, 1⟩, ⟨0x4b48494f, 204, 3⟩, ⟨0x4b494e4a, 685, 0⟩, ⟨0x5048544f, 38, 5⟩, ⟨0x4b485844, 19, 1⟩, ⟨0x4b484848, 10, 1⟩, ⟨0x4b484252, 1564, 0⟩, ⟨0x4b484f42, 3661, 4⟩, ⟨0x4b424956, 698, 1⟩, -- KHIB KHKY KHIO KINJ PHTO KHXD KHHH KHBR KHOB KBIV
  ⟨0x4b48574f, 8, 1⟩, ⟨0x50414843, 70, 2⟩, ⟨0x5041484f, 84, 2⟩, ⟨0x4b485354, 6, 1⟩, ⟨0x4b48444f, 930, 0⟩, ⟨0x5048494b, 13, 5⟩, ⟨0x50484e4c, 13, 5⟩, ⟨0x50414f48, 19, 2⟩, ⟨0x50414850, 7, 2⟩, ⟨0x4b484f50, 573, 0⟩, -- KHWO PAHC PAHO KHST KHDO PHIK PHNL PAOH PAHP KHOP
  ⟨0x4b484f54, 540, 0⟩, ⟨0x4b48544c, 1150, 1⟩, ⟨0x4b48554c, 489, 1⟩, ⟨0x4b414150, 80, 0⟩, ⟨0x4b445748, 152, 0⟩, ⟨0x4b454644, 32, 0⟩, ⟨0x4b484f55, 46, 0⟩, ⟨0x4b494148, 97, 0⟩, ⟨0x4b495753, 111, 0⟩, ⟨0x50414855, 299, 2⟩, -- KHOT KHTL KHUL KAAP KDWH KEFD KHOU KIAH KIWS PAHU
  ⟨0x4b53564e, 42, 1⟩, ⟨0x4b485453, 828, 1⟩, ⟨0x4b485356, 629, 0⟩, ⟨0x4b4d4451, 756, 0⟩, ⟨0x4b484f4e, 1289, 0⟩, ⟨0x5041484c, 213, 2⟩, ⟨0x4b485554, 1543, 0⟩, ⟨0x50414859, 0, 2⟩, ⟨0x4b494441, 4744, 4⟩, ⟨0x50414947, 90, 2⟩, -- KSVN KHTS KHSV KMDQ KHON PAHL KHUT PAHY KIDA PAIG
  ⟨0x5041494c, 186, 2⟩, ⟨0x4b494d4d, 37, 1⟩, ⟨0x4b49504c, -54, 3⟩, ⟨0x5041494d, 1220, 2⟩, ⟨0x4b494e53, 3133, 3⟩, ⟨0x4b494e44, 797, 1⟩, ⟨0x4b554d50, 811, 1⟩, ⟨0x4b494e4c, 1185, 0⟩, ⟨0x4b49594b, 2455, 3⟩, ⟨0x4b494f57, 668, 0⟩, -- PAIL KIMM KIPL PAIM KINS KIND KUMP KINL KIYK KIOW
  ⟨0x4b494d54, 1182, 0⟩, ⟨0x4b495350, 99, 1⟩, ⟨0x4b495448, 1099, 1⟩, ⟨0x4b4a4143, 6451, 4⟩, ⟨0x4b4f414a, 94, 1⟩, ⟨0x4b4a4158, 30, 1⟩, ⟨0x4b4c5246, 311, 0⟩, ⟨0x4b4e4341, 26, 1⟩, ⟨0x4b4e4950, 22, 1⟩, ⟨0x4b565151, 81, 1⟩, -- KIMT KISP KITH KJAC KOAJ KJAX KLRF KNCA KNIP KVQQ
  ⟨0x4b4a414e, 346, 0⟩, ⟨0x4b4a584e, 1001, 1⟩, ⟨0x4b4d4b4c, 434, 0⟩, ⟨0x4b4a4857, 525, 1⟩, ⟨0x4b4a4d53, 1498, 0⟩, ⟨0x4b4a564c, 808, 0⟩, ⟨0x4b4a5a50, 1535, 1⟩, ⟨0x4b4a4546, 549, 0⟩, ⟨0x4b4a4553, 107, 1⟩, ⟨0x4b4a5354, 2284, 1⟩, -- KJAN KJXN KMKL KJHW KJMS KJVL KJZP KJEF KJES KJST
  ⟨0x4b4a4f54, 582, 0⟩, ⟨0x4b4a4252, 262, 0⟩, ⟨0x4b4a4c4e, 981, 0⟩, ⟨0x50414a4e, 21, 2⟩, ⟨0x50484f47, 54, 5⟩, ⟨0x4b41495a, 869, 0⟩, ⟨0x50414645, 172, 2⟩, ⟨0x4b415a4f, 874, 1⟩, ⟨0x4b464341, 2977, 4⟩, ⟨0x50414c47, 55, 2⟩, -- KJOT KJBR KJLN PAJN PHOG KAIZ PAFE KAZO KFCA PALG
  ⟨0x50414b56, 187, 2⟩, ⟨0x50484d55, 2671, 5⟩, ⟨0x50484e47, 24, 5⟩, ⟨0x4b494b4b, 630, 0⟩, ⟨0x4b4d4349, 1026, 0⟩, ⟨0x4b4d4b43, 759, 0⟩, ⟨0x50484a52, 30, 5⟩, ⟨0x50414b59, 137, 2⟩, ⟨0x50464b41, 40, 2⟩, ⟨0x454152, 2131, 0⟩] -- PAKV PHMU PHNG KIKK KMCI KMKC PHJR PAKY PFKA EAR

/-- lines 601 to 700 of those with `country=United States` -/
def us6 : List Airport := [
  ⟨0x4b4b4c53, 20, 3⟩, ⟨0x5041454e, 99, 2⟩, ⟨0x4b544d42, 8, 1⟩, ⟨0x4b454f4b, 671, 0⟩, ⟨0x4b455256, 1617, 0⟩, ⟨0x50414b54, 88, 2⟩, ⟨0x37464131, 4, 1⟩, ⟨0x4b455957, 3, 1⟩, ⟨0x4b4e5158, 6, 1⟩, ⟨0x5041494b, 166, 2⟩, -- KKLS PAEN KTMB KEOK KERV PAKT 7FA1 KEYW KNQX PAIK
  ⟨0x4b464641, 13, 1⟩, ⟨0x4b47524b, 1015, 0⟩, ⟨0x50415643, 155, 2⟩, ⟨0x50414b4e, 68, 2⟩, ⟨0x49474d, 3449, 6⟩, ⟨0x4b4e5149, 50, 0⟩, ⟨0x4b49534f, 94, 1⟩, ⟨0x50414b49, 11, 2⟩, ⟨0x4b49524b, 966, 0⟩, ⟨0x4b494b52, 5355, 4⟩, -- KFFA KGRK PAVC PAKN IGM KNQI KISO PAKI KIRK KIKR
  ⟨0x4b49534d, 82, 1⟩, ⟨0x5041564c, 13, 2⟩, ⟨0x4b4c4d54, 4095, 3⟩, ⟨0x50414b57, 80, 2⟩, ⟨0x50415143, 0, 2⟩, ⟨0x4b535a4c, 870, 0⟩, ⟨0x4b444b58, 833, 1⟩, ⟨0x4b545953, 981, 1⟩, ⟨0x50414f42, 137, 2⟩, ⟨0x50414451, 78, 2⟩, -- KISM PAVL KLMT PAKW PAQC KSZL KDKX KTYS PAOB PADQ
  ⟨0x50414a5a, 269, 2⟩, ⟨0x50484b4f, 47, 5⟩, ⟨0x50414459, 30, 2⟩, ⟨0x50464b4f, 15, 2⟩, ⟨0x50414f54, 11, 2⟩, ⟨0x50464b55, 149, 2⟩, ⟨0x50414b4b, 154, 2⟩, ⟨0x50414b55, 67, 2⟩, ⟨0x50464b57, 30, 2⟩, ⟨0x50414747, 18, 2⟩, -- PAJZ PHKO PADY PFKO PAOT PFKU PAKK PAKU PFKW PAGG
  ⟨0x4b4c5345, 654, 0⟩, ⟨0x4b4c4858, 4238, 4⟩, ⟨0x4b504f43, 1014, 3⟩, ⟨0x4b4c4654, 43, 0⟩, ⟨0x4b4c4743, 694, 1⟩, ⟨0x50484a48, 256, 5⟩, ⟨0x4b4c4348, 15, 0⟩, ⟨0x4b4c4351, 201, 1⟩, ⟨0x4b484949, 783, 6⟩, ⟨0x50414d48, 678, 2⟩, -- KLSE KLHX KPOC KLFT KLGC PHJH KLCH KLCQ KHII PAMH
  ⟨0x4b4c4b50, 1747, 1⟩, ⟨0x4b4e454c, 103, 1⟩, ⟨0x4b4c414c, 142, 1⟩, ⟨0x4b4c4b56, 4733, 3⟩, ⟨0x4b4c4141, 3706, 4⟩, ⟨0x50484e59, 1308, 5⟩, ⟨0x4b4c4e53, 403, 1⟩, ⟨0x4b494751, 620, 0⟩, ⟨0x4b4c414e, 861, 1⟩, ⟨0x4b4c4152, 7284, 4⟩, -- KLKP KNEL KLAL KLKV KLAA PHNY KLNS KIGQ KLAN KLAR
  ⟨0x4b4c5244, 508, 0⟩, ⟨0x50414c42, 87, 2⟩, ⟨0x4b4c5255, 4456, 4⟩, ⟨0x4b4c4153, 2141, 3⟩, ⟨0x4b4c5356, 1870, 3⟩, ⟨0x4b4c5653, 6877, 4⟩, ⟨0x4b4c4245, 1185, 1⟩, ⟨0x4b4c5a55, 1061, 1⟩, ⟨0x4b4c5743, 833, 0⟩, ⟨0x4b4c574d, 148, 1⟩, -- KLRD PALB KLRU KLAS KLSV KLVS KLBE KLZU KLWC KLWM
  ⟨0x4b4c4157, 1110, 0⟩, ⟨0x4b4c4542, 603, 1⟩, ⟨0x4b533330, 344, 3⟩, ⟨0x4b4a594f, 389, 1⟩, ⟨0x4b4e4c43, 234, 3⟩, ⟨0x4b4c5742, 2302, 1⟩, ⟨0x4c575342, 456, 1⟩, ⟨0x4b4c4557, 288, 1⟩, ⟨0x4b4c5753, 1442, 3⟩, ⟨0x4b4c5754, 4170, 4⟩, -- KLAW KLEB KS30 KJYO KNLC KLWB LWSB KLEW KLWS KLWT
  ⟨0x4b4c4558, 979, 1⟩, ⟨0x4b4c424c, 2885, 0⟩, ⟨0x50484c49, 153, 5⟩, ⟨0x4b414f48, 975, 1⟩, ⟨0x4b4c484d, 121, 3⟩, ⟨0x4b4c4e4b, 1219, 0⟩, ⟨0x4b4c444a, 23, 1⟩, ⟨0x4b4c4954, 262, 0⟩, ⟨0x4b4c564b, 400, 3⟩, ⟨0x4b4c564d, 4660, 4⟩, -- KLEX KLBL PHLI KAOH KLHM KLNK KLDJ KLIT KLVK KLVM
  ⟨0x4b4c4856, 556, 1⟩, ⟨0x4b4c4f54, 680, 0⟩, ⟨0x47413034, 837, 1⟩, ⟨0x4b4c4755, 4457, 4⟩, ⟨0x4b4c5043, 88, 3⟩, ⟨0x4b564247, 369, 3⟩, ⟨0x4b4c4f5a, 1212, 1⟩, ⟨0x4b4c4e52, 718, 0⟩, ⟨0x4b4c4742, 60, 3⟩, ⟨0x4b474747, 365, 0⟩] -- KLHV KLOT GA04 KLGU KLPC KVBG KLOZ KLNR KLGB KGGG

/-- lines 701 to 800 of those with `country=United States` -/
def us7 : List Airport := [
  ⟨0x4f473339, 2080, 3⟩, ⟨0x533331, 209, 3⟩, ⟨0x4b4c5052, 793, 1⟩, ⟨0x4b4c414d, 7171, 4⟩, ⟨0x4b4c4158, 126, 3⟩, ⟨0x4b574850, 1003, 3⟩, ⟨0x4b415241, 24, 0⟩, ⟨0x4b4c4f55, 546, 1⟩, ⟨0x4b534446, 501, 1⟩, ⟨0x4b4c4242, 3282, 0⟩, -- OG39 S31 KLPR KLAM KLAX KWHP KARA KLOU KSDF KLBB
  ⟨0x4b4c464b, 296, 0⟩, ⟨0x4b4c4254, 125, 1⟩, ⟨0x4b4c5541, 903, 1⟩, ⟨0x4b4c5948, 938, 1⟩, ⟨0x4b4d4d56, 163, 3⟩, ⟨0x4b4d434e, 354, 1⟩, ⟨0x4b4d4e4d, 625, 0⟩, ⟨0x4b575242, 294, 1⟩, ⟨0x4b4d4145, 255, 3⟩, ⟨0x4b353241, 694, 1⟩, -- KLFK KLBT KLUA KLYH KMMV KMCN KMNM KWRB KMAE K52A
  ⟨0x4b4d534e, 887, 0⟩, ⟨0x4d44534e, 266, 1⟩, ⟨0x4b4d4c44, 4503, 4⟩, ⟨0x4b4d4d48, 7128, 3⟩, ⟨0x4b484546, 192, 1⟩, ⟨0x4b4d4854, 266, 1⟩, ⟨0x4b4d484b, 1057, 0⟩, ⟨0x4b4d424c, 621, 1⟩, ⟨0x50414d4c, 270, 2⟩, ⟨0x50414d42, 51, 2⟩, -- KMSN MDSN KMLD KMMH KHEF KMHT KMHK KMBL PAML PAMB
  ⟨0x4b4d4644, 1297, 1⟩, ⟨0x4b4d5149, 13, 1⟩, ⟨0x4d504c44, 115, 1⟩, ⟨0x4b4d5a4a, 1893, 6⟩, ⟨0x4b4d5448, 7, 1⟩, ⟨0x4b4d4b59, 5, 1⟩, ⟨0x4b4d4745, 1068, 1⟩, ⟨0x4b4d5741, 472, 0⟩, ⟨0x4b4d5049, 2454, 3⟩, ⟨0x4b4d5154, 1221, 1⟩, -- KMFD KMQI MPLD KMZJ KMTH KMKY KMGE KMWA KMPI KMQT
  ⟨0x4b524d59, 941, 1⟩, ⟨0x5041444d, 103, 2⟩, ⟨0x4b474847, 9, 1⟩, ⟨0x4b4d4649, 1278, 0⟩, ⟨0x4b4d5242, 554, 1⟩, ⟨0x4b485254, 38, 0⟩, ⟨0x4b424142, 113, 3⟩, ⟨0x4b4d4357, 1243, 0⟩, ⟨0x4b4d5353, 215, 1⟩, ⟨0x4b4d3934, 586, 3⟩, -- KRMY PADM KGHG KMFI KMRB KHRT KBAB KMCW KMSS KM94
  ⟨0x4b4d4c43, 770, 0⟩, ⟨0x4b4d4645, 107, 0⟩, ⟨0x4b4d594c, 5021, 4⟩, ⟨0x4b4d434b, 2583, 0⟩, ⟨0x50414d43, 338, 2⟩, ⟨0x5041494e, 1720, 2⟩, ⟨0x4b4d4652, 1335, 3⟩, ⟨0x50414d59, 48, 2⟩, ⟨0x4b4d4c42, 33, 1⟩, ⟨0x4b4d454d, 341, 0⟩, -- KMLC KMFE KMYL KMCK PAMC PAIN KMFR PAMY KMLB KMEM
  ⟨0x4b4d4345, 156, 3⟩, ⟨0x4b4d4552, 189, 3⟩, ⟨0x4b4d4549, 297, 0⟩, ⟨0x4b4e4d4d, 317, 0⟩, ⟨0x4b46465a, 1394, 6⟩, ⟨0x4b495741, 1382, 6⟩, ⟨0x50414d4d, 0, 2⟩, ⟨0x4b4d4941, 8, 1⟩, ⟨0x4b4f5046, 8, 1⟩, ⟨0x4b544e54, 13, 1⟩, -- KMCE KMER KMEI KNMM KFFZ KIWA PAMM KMIA KOPF KTNT
  ⟨0x4b4d4743, 500, 0⟩, ⟨0x4b4d4146, 2871, 0⟩, ⟨0x4b4d4c53, 2630, 4⟩, ⟨0x4b4d4c4a, 385, 1⟩, ⟨0x4b4e5141, 320, 0⟩, ⟨0x4b4d4c54, 408, 1⟩, ⟨0x4b4d4956, 85, 1⟩, ⟨0x4b4e5345, 199, 0⟩, ⟨0x4b4d4b45, 723, 0⟩, ⟨0x4b4d5743, 745, 0⟩, -- KMGC KMAF KMLS KMLJ KNQA KMLT KMIV KNSE KMKE KMWC
  ⟨0x4b4d574c, 974, 0⟩, ⟨0x4b4d5350, 841, 0⟩, ⟨0x4b415256, 1629, 0⟩, ⟨0x4b4d4942, 1668, 0⟩, ⟨0x4b4d4f54, 1716, 0⟩, ⟨0x4b4e4b58, 478, 3⟩, ⟨0x4b4d534f, 3205, 4⟩, ⟨0x4b434e59, 4555, 4⟩, ⟨0x31415a30, 1261, 6⟩, ⟨0x4b42464d, 26, 0⟩, -- KMWL KMSP KARV KMIB KMOT KNKX KMSO KCNY 1AZ0 KBFM
  ⟨0x4b4d4f42, 219, 0⟩, ⟨0x4b4d4f44, 97, 3⟩, ⟨0x4b4d4856, 2791, 3⟩, ⟨0x4b4d4c49, 590, 0⟩, ⟨0x50484c55, 24, 5⟩, ⟨0x50484d4b, 454, 5⟩, ⟨0x4b454654, 1079, 0⟩, ⟨0x4b4d4c55, 79, 0⟩, ⟨0x4b4d5259, 257, 3⟩, ⟨0x4b4d474a, 364, 1⟩] -- KMOB KMOD KMHV KMLI PHLU PHMK KEFT KMLU KMRY KMGJ

/-- lines 801 to 900 of those with `country=United States` -/
def us8 : List Airport := [
  ⟨0x4b4d474d, 221, 0⟩, ⟨0x4b4d5846, 171, 0⟩, ⟨0x4b4d5056, 1165, 1⟩, ⟨0x4b4d544a, 5759, 4⟩, ⟨0x55543235, 5192, 4⟩, ⟨0x4b4d524e, 1270, 1⟩, ⟨0x4b4d4757, 1248, 1⟩, ⟨0x4b4d4d55, 187, 1⟩, ⟨0x4d525354, 315, 1⟩, ⟨0x4b4d564c, 732, 1⟩, -- KMGM KMXF KMPV KMTJ UT25 KMRN KMGW KMMU MRST KMVL
  ⟨0x4b4d5443, 580, 1⟩, ⟨0x4b564159, 53, 1⟩, ⟨0x4b4d554f, 2996, 4⟩, ⟨0x4b4e5551, 32, 3⟩, ⟨0x50414d4f, 337, 2⟩, ⟨0x4b4d5549, 489, 1⟩, ⟨0x4b463730, 1350, 3⟩, ⟨0x4b4d534c, 550, 0⟩, ⟨0x4b4d4b47, 628, 1⟩, ⟨0x4b4d4b4f, 612, 0⟩, -- KMTC KVAY KMUO KNUQ PAMO KMUI KF70 KMSL KMKG KMKO
  ⟨0x4b4d5952, 25, 1⟩, ⟨0x4b41434b, 48, 1⟩, ⟨0x4b415043, 35, 3⟩, ⟨0x4b415046, 8, 1⟩, ⟨0x4b415348, 199, 1⟩, ⟨0x4b424e41, 599, 0⟩, ⟨0x50414f55, 14, 2⟩, ⟨0x4b455742, 80, 1⟩, ⟨0x4b45574e, 18, 1⟩, ⟨0x4e42574b, 62, 1⟩, -- KMYR KACK KAPC KAPF KASH KBNA PAOU KEWB KEWN NBWK
  ⟨0x4b48564e, 14, 1⟩, ⟨0x4b4d5359, 4, 0⟩, ⟨0x4b4e4247, 3, 0⟩, ⟨0x4b4e4557, 7, 0⟩, ⟨0x4b504844, 894, 1⟩, ⟨0x50414e57, 302, 2⟩, ⟨0x4b49444c, 13, 1⟩, ⟨0x4b4a464b, 13, 1⟩, ⟨0x4b4a5241, 7, 1⟩, ⟨0x4b4a5242, 7, 1⟩, -- KHVN KMSY KNBG KNEW KPHD PANW KIDL KJFK KJRA KJRB
  ⟨0x4b4c4741, 22, 1⟩, ⟨0x4e4b3339, 244, 1⟩, ⟨0x4e4f4e45, 10, 1⟩, ⟨0x4e595041, 0, 1⟩, ⟨0x4b455752, 18, 1⟩, ⟨0x4b455259, 869, 1⟩, ⟨0x4b535746, 491, 1⟩, ⟨0x4b43434f, 970, 1⟩, ⟨0x4b504846, 43, 1⟩, ⟨0x4b4e4f50, 160, 3⟩, -- KLGA NK39 NONE NYPA KEWR KERY KSWF KCCO KPHF KNOP
  ⟨0x4b45574b, 1533, 0⟩, ⟨0x4b494147, 589, 1⟩, ⟨0x50414754, 4, 2⟩, ⟨0x50414653, 427, 2⟩, ⟨0x50414b4f, 77, 2⟩, ⟨0x5041574e, 88, 2⟩, ⟨0x4b4f4c53, 3955, 6⟩, ⟨0x50414f4d, 37, 2⟩, ⟨0x50414e4f, 262, 2⟩, ⟨0x50464e4f, 55, 2⟩, -- KEWK KIAG PAGT PAFS PAKO PAWN KOLS PAOM PANO PFNO
  ⟨0x4b4e4755, 15, 1⟩, ⟨0x4b4f5246, 26, 1⟩, ⟨0x4b4f5448, 17, 3⟩, ⟨0x4b4f5155, 18, 1⟩, ⟨0x4b4c4246, 2776, 0⟩, ⟨0x50414f52, 1716, 2⟩, ⟨0x4b4f5744, 49, 1⟩, ⟨0x4b44564f, 2, 3⟩, ⟨0x50415154, 38, 2⟩, ⟨0x50414e55, 399, 2⟩, -- KNGU KORF KOTH KOQU KLBF PAOR KOWD KDVO PAQT PANU
  ⟨0x4b324933, 577, 0⟩, ⟨0x4b535553, 463, 0⟩, ⟨0x4b4f414b, 9, 3⟩, ⟨0x4b4f4346, 89, 1⟩, ⟨0x30374641, 8, 1⟩, ⟨0x4b573034, 15, 3⟩, ⟨0x4b4e5455, 22, 1⟩, ⟨0x4b4c3532, 14, 3⟩, ⟨0x30574938, 885, 0⟩, ⟨0x4b4f4753, 297, 1⟩, -- K2I3 KSUS KOAK KOCF 07FA KW04 KNTU KL52 0WI8 KOGS
  ⟨0x4b484946, 4789, 4⟩, ⟨0x4b4f4245, 34, 1⟩, ⟨0x4b4f4b43, 1295, 0⟩, ⟨0x4b54494b, 1291, 0⟩, ⟨0x4b495844, 1087, 0⟩, ⟨0x4b4f4a43, 1096, 0⟩, ⟨0x4b4f4c56, 350, 0⟩, ⟨0x4b4f4c4d, 209, 3⟩, ⟨0x4b4f4646, 1052, 0⟩, ⟨0x4b4f4d41, 984, 0⟩, -- KHIF KOBE KOKC KTIK KIXD KOJC KOLV KOLM KOFF KOMA
  ⟨0x4b4f4e4f, 2193, 4⟩, ⟨0x4b4f4e54, 944, 3⟩, ⟨0x50485550, 96, 5⟩, ⟨0x4b4d434f, 96, 1⟩, ⟨0x4b4f524c, 113, 1⟩, ⟨0x4b4f4d4e, 28, 1⟩, ⟨0x4b4f5343, 634, 1⟩, ⟨0x4b4f5348, 790, 0⟩, ⟨0x4b4f5742, 406, 0⟩, ⟨0x4b4f5843, 726, 1⟩] -- KONO KONT PHUP KMCO KORL KOMN KOSC KOSH KOWB KOXC

/-- lines 901 to 1000 of those with `country=United States` -/
def us9 : List Airport := [
  ⟨0x4b4f5852, 15, 3⟩, ⟨0x4b4f5a41, 2381, 0⟩, ⟨0x4b353553, 1057, 3⟩, ⟨0x4b504148, 410, 0⟩, ⟨0x4b504741, 4316, 6⟩, ⟨0x4b50484b, 15, 1⟩, ⟨0x4b505358, 14, 0⟩, ⟨0x4b505350, 477, 3⟩, ⟨0x4b54524d, 0, 3⟩, ⟨0x4b554444, 73, 3⟩, -- KOXR KOZA K55S KPAH KPGA KPHK KPSX KPSP KTRM KUDD
  ⟨0x4b504d44, 2543, 3⟩, ⟨0x50414151, 242, 2⟩, ⟨0x4b50414f, 7, 3⟩, ⟨0x4b454350, 69, 0⟩, ⟨0x4b50414d, 17, 0⟩, ⟨0x4b50464e, 20, 0⟩, ⟨0x4b504b42, 858, 1⟩, ⟨0x505343, 410, 3⟩, ⟨0x4b4e484b, 39, 1⟩, ⟨0x4b504551, 2613, 0⟩, -- KPMD PAAQ KPAO KECP KPAM KPFN KPKB PSC KNHK KPEQ
  ⟨0x4b504c4e, 720, 1⟩, ⟨0x4b504d42, 795, 0⟩, ⟨0x4b504454, 1497, 3⟩, ⟨0x4b4e5041, 28, 0⟩, ⟨0x4b504e53, 121, 0⟩, ⟨0x4b504941, 660, 0⟩, ⟨0x50415045, 29, 2⟩, ⟨0x4b475553, 812, 1⟩, ⟨0x4b565953, 654, 0⟩, ⟨0x4b505442, 193, 1⟩, -- KPLN KPMB KPDT KNPA KPNS KPIA PAPE KGUS KVYS KPTB
  ⟨0x50415047, 105, 2⟩, ⟨0x484f4c4d, 39, 1⟩, ⟨0x4b4c4f4d, 302, 1⟩, ⟨0x4b50484c, 36, 1⟩, ⟨0x4b504e45, 121, 1⟩, ⟨0x4b504248, 1466, 0⟩, ⟨0x4b445654, 1478, 7⟩, ⟨0x4b413339, 1300, 6⟩, ⟨0x4b4c5546, 1085, 6⟩, ⟨0x4b504858, 1135, 6⟩, -- PAPG HOLM KLOM KPHL KPNE KPBH KDVT KA39 KLUF KPHX
  ⟨0x4b504952, 1742, 0⟩, ⟨0x4b504258, 1473, 1⟩, ⟨0x5041504e, 57, 2⟩, ⟨0x4b504246, 206, 0⟩, ⟨0x4b50494d, 902, 1⟩, ⟨0x4b534f50, 455, 1⟩, ⟨0x4b414743, 1252, 1⟩, ⟨0x4b504954, 1204, 1⟩, ⟨0x46413534, 8, 1⟩, ⟨0x4b504247, 234, 1⟩, -- KPIR KPBX PAPN KPBF KPIM KSOP KAGC KPIT FA54 KPBG
  ⟨0x4b50594d, 148, 1⟩, ⟨0x4b504948, 4452, 4⟩, ⟨0x50415042, 125, 2⟩, ⟨0x5050484f, 12, 2⟩, ⟨0x5050495a, 25, 2⟩, ⟨0x4b4e5444, 13, 3⟩, ⟨0x4b31524c, 10, 3⟩, ⟨0x4b504d50, 19, 1⟩, ⟨0x4b504e43, 1007, 0⟩, ⟨0x4b50544b, 980, 1⟩, -- KPYM KPIH PAPB PPHO PPIZ KNTD K1RL KPMP KPNC KPTK
  ⟨0x4b504f46, 331, 0⟩, ⟨0x50414c4a, 253, 2⟩, ⟨0x4b434c4d, 291, 3⟩, ⟨0x4b4e4f57, 13, 3⟩, ⟨0x50415043, 10, 2⟩, ⟨0x4b504357, 590, 1⟩, ⟨0x50415048, 95, 2⟩, ⟨0x4b50484e, 650, 1⟩, ⟨0x5041504d, 15, 2⟩, ⟨0x58533436, 10, 0⟩, -- KPOF PALJ KCLM KNOW PAPC KPCW PAPH KPHN PAPM XS46
  ⟨0x4b504458, 30, 3⟩, ⟨0x4b50574d, 77, 1⟩, ⟨0x4b50534d, 100, 1⟩, ⟨0x504b5053, 180, 1⟩, ⟨0x4b505243, 5045, 6⟩, ⟨0x4b505149, 534, 1⟩, ⟨0x4b505543, 5957, 4⟩, ⟨0x4b504e4d, 979, 0⟩, ⟨0x4b533339, 3250, 3⟩, ⟨0x50415052, 1095, 2⟩, -- KPDX KPWM KPSM PKPS KPRC KPQI KPUC KPNM KS39 PAPR
  ⟨0x4b533430, 705, 3⟩, ⟨0x4b505644, 55, 1⟩, ⟨0x4b505643, 9, 1⟩, ⟨0x4b505655, 4497, 4⟩, ⟨0x4b505542, 4726, 4⟩, ⟨0x4b505557, 2556, 3⟩, ⟨0x4b504744, 26, 1⟩, ⟨0x4b4e5947, 11, 1⟩, ⟨0x4b47464c, 328, 1⟩, ⟨0x4b55494e, 769, 0⟩, -- KS40 KPVD KPVC KPVU KPUB KPUW KPGD KNYG KGFL KUIN
  ⟨0x50415148, 42, 2⟩, ⟨0x4b32334d, 320, 0⟩, ⟨0x4b524143, 674, 0⟩, ⟨0x4b524455, 435, 1⟩, ⟨0x4b524e4d, 1395, 3⟩, ⟨0x4b524955, 141, 3⟩, ⟨0x4b524150, 3204, 4⟩, ⟨0x4b524341, 3279, 4⟩, ⟨0x4b46574c, 6813, 4⟩, ⟨0x4b524447, 344, 1⟩] -- PAQH K23M KRAC KRDU KRNM KRIU KRAP KRCA KFWL KRDG

/-- lines 1001 to 1100 of those with `country=United States` -/
def us10 : List Airport := [
  ⟨0x4b52424c, 352, 3⟩, ⟨0x4b524452, 913, 0⟩, ⟨0x4b524444, 504, 3⟩, ⟨0x4b524549, 1574, 3⟩, ⟨0x4b52444d, 3077, 3⟩, ⟨0x4b485541, 685, 0⟩, ⟨0x4b524e4f, 4415, 3⟩, ⟨0x4b524e54, 32, 3⟩, ⟨0x4e593934, 323, 1⟩, ⟨0x4b524849, 1624, 0⟩, -- KRBL KRDR KRDD KREI KRDM KHUA KRNO KRNT NY94 KRHI
  ⟨0x4b524946, 5301, 4⟩, ⟨0x4b434746, 879, 1⟩, ⟨0x4b524943, 167, 1⟩, ⟨0x4b524944, 1140, 1⟩, ⟨0x4b52494c, 5548, 4⟩, ⟨0x4b52414c, 818, 3⟩, ⟨0x4b524952, 764, 3⟩, ⟨0x4b524956, 1535, 3⟩, ⟨0x4b524957, 5525, 4⟩, ⟨0x4b524f41, 1175, 1⟩, -- KRIF KCGF KRIC KRID KRIL KRAL KRIR KRIV KRIW KROA
  ⟨0x4b52424d, 587, 0⟩, ⟨0x4b444157, 321, 1⟩, ⟨0x4b524f43, 559, 1⟩, ⟨0x4b525354, 1317, 0⟩, ⟨0x4b555a41, 667, 1⟩, ⟨0x4b524b53, 6760, 4⟩, ⟨0x4b524644, 742, 0⟩, ⟨0x4b52435a, 358, 1⟩, ⟨0x4b524b44, 56, 1⟩, ⟨0x4b524b50, 24, 0⟩, -- KRBM KDAW KROC KRST KUZA KRKS KRFD KRCZ KRKD KRKP
  ⟨0x4b525749, 159, 1⟩, ⟨0x4b524d45, 504, 1⟩, ⟨0x4b524d47, 664, 1⟩, ⟨0x4b53544a, 826, 0⟩, ⟨0x4b524f57, 3671, 4⟩, ⟨0x50415259, 653, 2⟩, ⟨0x4b535252, 6814, 4⟩, ⟨0x50415253, 51, 2⟩, ⟨0x4b525554, 787, 1⟩, ⟨0x4b4b3833, 1330, 0⟩, -- KRWI KRME KRMG KSTJ KROW PARY KSRR PARS KRUT KK83
  ⟨0x4b4d4343, 75, 3⟩, ⟨0x4b4d4852, 96, 3⟩, ⟨0x4b534143, 24, 3⟩, ⟨0x4b534d46, 27, 3⟩, ⟨0x4b534144, 3179, 6⟩, ⟨0x4b4d4253, 668, 1⟩, ⟨0x4b535443, 1031, 0⟩, ⟨0x4b534755, 2941, 4⟩, ⟨0x4b534c45, 214, 3⟩, ⟨0x4b534c4e, 1288, 0⟩, -- KMCC KMHR KSAC KSMF KSAD KMBS KSTC KSGU KSLE KSLN
  ⟨0x4b534259, 52, 1⟩, ⟨0x4b534d4e, 4043, 4⟩, ⟨0x4b534c43, 4227, 4⟩, ⟨0x534c4352, 0, 4⟩, ⟨0x4b364a34, 539, 1⟩, ⟨0x4b534a54, 1919, 0⟩, ⟨0x4b524e44, 762, 0⟩, ⟨0x4b534154, 809, 0⟩, ⟨0x4b534b46, 691, 0⟩, ⟨0x4b534244, 1159, 3⟩, -- KSBY KSMN KSLC SLCR K6J4 KSJT KRND KSAT KSKF KSBD
  ⟨0x4b53514c, 5, 3⟩, ⟨0x4b4e5543, 184, 3⟩, ⟨0x4b4e5a59, 26, 3⟩, ⟨0x4b53414e, 17, 3⟩, ⟨0x4b53444d, 526, 3⟩, ⟨0x4e554c4c, 17, 7⟩, ⟨0x53414e42, 0, 3⟩, ⟨0x4b53464f, 13, 3⟩, ⟨0x4b534a43, 62, 3⟩, ⟨0x4b534250, 212, 3⟩, -- KSQL KNUC KNZY KSAN KSDM NULL SANB KSFO KSJC KSBP
  ⟨0x4b535042, 58, 3⟩, ⟨0x4b4e5349, 506, 3⟩, ⟨0x50415344, 21, 2⟩, ⟨0x4b534b59, 580, 1⟩, ⟨0x4b534642, 55, 1⟩, ⟨0x4b4e5a4a, 383, 3⟩, ⟨0x4b534e41, 56, 3⟩, ⟨0x4b534241, 10, 3⟩, ⟨0x4b53424f, 327, 1⟩, ⟨0x4b534146, 6348, 4⟩, -- KSPB KNSI PASD KSKY KSFB KNZJ KSNA KSBA KSBO KSAF
  ⟨0x4b534d58, 261, 3⟩, ⟨0x4b534d4f, 177, 3⟩, ⟨0x4b535453, 125, 3⟩, ⟨0x4b534c4b, 1663, 1⟩, ⟨0x4b535251, 30, 1⟩, ⟨0x4b534141, 7012, 4⟩, ⟨0x4b434955, 800, 1⟩, ⟨0x4b534156, 51, 1⟩, ⟨0x50415341, 53, 2⟩, ⟨0x5041434d, 14, 2⟩, -- KSMX KSMO KSTS KSLK KSRQ KSAA KCIU KSAV PASA PACM
  ⟨0x4b534348, 378, 1⟩, ⟨0x4b424646, 3967, 4⟩, ⟨0x4b53444c, 1519, 6⟩, ⟨0x4b415650, 962, 1⟩, ⟨0x53435254, 745, 1⟩, ⟨0x4b424649, 21, 3⟩, ⟨0x4b534541, 433, 3⟩, ⟨0x4b573535, 14, 3⟩, ⟨0x50534541, 0, 3⟩, ⟨0x53454154, 7, 3⟩] -- KSCH KBFF KSDL KAVP SCRT KBFI KSEA KW55 PSEA SEAT

/-- lines 1101 to 1200 of those with `country=United States` -/
def us11 : List Airport := [
  ⟨0x4b534546, 63, 1⟩, ⟨0x4b53455a, 4830, 6⟩, ⟨0x5041534b, 17, 2⟩, ⟨0x4b534553, 131, 0⟩, ⟨0x4b53454d, 166, 0⟩, ⟨0x4b554f53, 1953, 0⟩, ⟨0x50414858, 79, 2⟩, ⟨0x50465348, 24, 2⟩, ⟨0x4b53424d, 755, 0⟩, ⟨0x4b324830, 550, 0⟩, -- KSEF KSEZ PASK KSES KSEM KUOS PAHX PFSH KSBM K2H0
  ⟨0x50415359, 98, 2⟩, ⟨0x4b534852, 4021, 4⟩, ⟨0x50415348, 12, 2⟩, ⟨0x4b534f57, 6415, 6⟩, ⟨0x4b424144, 166, 0⟩, ⟨0x4b534856, 258, 0⟩, ⟨0x50414748, 197, 2⟩, ⟨0x4b534459, 1984, 4⟩, ⟨0x4b534e59, 4313, 4⟩, ⟨0x4b53494b, 315, 0⟩, -- PASY KSHR PASH KSOW KBAD KSHV PAGH KSDY KSNY KSIK
  ⟨0x535643, 5446, 4⟩, ⟨0x4b53505a, 4269, 3⟩, ⟨0x4b535558, 1098, 0⟩, ⟨0x4b465344, 1429, 0⟩, ⟨0x50415349, 21, 2⟩, ⟨0x50414759, 44, 2⟩, ⟨0x5041534c, 190, 2⟩, ⟨0x4b53465a, 441, 1⟩, ⟨0x4b4d5159, 543, 0⟩, ⟨0x4b534d45, 927, 1⟩, -- SVC KSPZ KSUX KFSD PASI PAGY PASL KSFZ KMQY KSME
  ⟨0x4b534d51, 105, 1⟩, ⟨0x4b53424e, 799, 1⟩, ⟨0x4b4c5741, 666, 1⟩, ⟨0x4b54564c, 8544, 3⟩, ⟨0x50465753, 162, 2⟩, ⟨0x53544854, 338, 1⟩, ⟨0x50415356, 1583, 2⟩, ⟨0x4b535046, 3931, 4⟩, ⟨0x4b535057, 1339, 0⟩, ⟨0x4b474547, 2376, 3⟩, -- KSMQ KSBN KLWA KTVL PFWS STHT PASV KSPF KSPW KGEG
  ⟨0x4b534646, 1953, 3⟩, ⟨0x4b534b41, 2461, 3⟩, ⟨0x4b534746, 1268, 0⟩, ⟨0x4b534748, 1051, 1⟩, ⟨0x4b535049, 597, 0⟩, ⟨0x5041534d, 311, 2⟩, ⟨0x4b53474a, 10, 1⟩, ⟨0x4b53544c, 618, 0⟩, ⟨0x50414d4b, 98, 2⟩, ⟨0x5041534e, 63, 2⟩, -- KSFF KSKA KSGF KSGH KSPI PASM KSGJ KSTL PAMK PASN
  ⟨0x4b535450, 705, 0⟩, ⟨0x4b504945, 10, 1⟩, ⟨0x4b535047, 7, 1⟩, ⟨0x4b554e56, 1239, 1⟩, ⟨0x4b535648, 968, 1⟩, ⟨0x4b534253, 6882, 4⟩, ⟨0x4b53544b, 4040, 4⟩, ⟨0x4b535445, 1110, 0⟩, ⟨0x4b53434b, 33, 3⟩, ⟨0x4b424452, 9, 1⟩, -- KSTP KPIE KSPG KUNV KSVH KSBS KSTK KSTE KSCK KBDR
  ⟨0x4b535541, 16, 1⟩, ⟨0x4b534752, 82, 0⟩, ⟨0x534d4d54, 374, 1⟩, ⟨0x4b535343, 242, 1⟩, ⟨0x4b4a594c, 188, 1⟩, ⟨0x4b535952, 421, 1⟩, ⟨0x53595443, 380, 1⟩, ⟨0x4b54434d, 322, 3⟩, ⟨0x4b544957, 294, 3⟩, ⟨0x5041544b, 358, 2⟩, -- KSUA KSGR SMMT KSSC KJYL KSYR SYTC KTCM KTIW PATK
  ⟨0x4b544c48, 81, 1⟩, ⟨0x4b4d4346, 14, 1⟩, ⟨0x4b545041, 26, 1⟩, ⟨0x5041544c, 964, 2⟩, ⟨0x4b54414e, 43, 1⟩, ⟨0x50415445, 294, 2⟩, ⟨0x4b544558, 9078, 4⟩, ⟨0x4b54504c, 682, 0⟩, ⟨0x4b485546, 589, 1⟩, ⟨0x4b544542, 9, 1⟩, -- KTLH KMCF KTPA PATL KTAN PATE KTEX KTPL KHUF KTEB
  ⟨0x4b54584b, 390, 0⟩, ⟨0x4b444c53, 247, 3⟩, ⟨0x4b545646, 1116, 0⟩, ⟨0x4b545649, 264, 1⟩, ⟨0x4b485155, 501, 1⟩, ⟨0x4b544d41, 355, 1⟩, ⟨0x4b544d4b, 36, 3⟩, ⟨0x50415443, 269, 2⟩, ⟨0x4b544f43, 996, 1⟩, ⟨0x50415447, 21, 2⟩, -- KTXK KDLS KTVF KTVI KHQU KTMA KTMK PATC KTOC PATG
  ⟨0x50414f4f, 59, 2⟩, ⟨0x5046544f, 1639, 2⟩, ⟨0x4b544f4c, 684, 1⟩, ⟨0x4b593732, 965, 0⟩, ⟨0x4b544e58, 5549, 3⟩, ⟨0x4b464f45, 1078, 0⟩, ⟨0x4b544f50, 881, 0⟩, ⟨0x4b544f41, 101, 3⟩, ⟨0x4b545643, 624, 1⟩, ⟨0x4b54544e, 213, 1⟩] -- PAOO PFTO KTOL KY72 KTNX KFOE KTOP KTOA KTVC KTTN

/-- lines 1201 to 1300 of those with `country=United States` -/
def us12 : List Airport := [
  ⟨0x54525443, 49, 1⟩, ⟨0x4b545444, 39, 3⟩, ⟨0x4b54524b, 5900, 3⟩, ⟨0x4b544353, 4853, 4⟩, ⟨0x4b415651, 2031, 6⟩, ⟨0x4b444d41, 2704, 6⟩, ⟨0x4b545553, 2643, 6⟩, ⟨0x4b544343, 4065, 4⟩, ⟨0x4b525653, 638, 0⟩, ⟨0x4b54554c, 677, 0⟩, -- TRTC KTTD KTRK KTCS KAVQ KDMA KTUS KTCC KRVS KTUL
  ⟨0x4b555441, 194, 0⟩, ⟨0x4b545550, 346, 0⟩, ⟨0x4b54434c, 170, 0⟩, ⟨0x4b4e5850, 2051, 3⟩, ⟨0x4b545746, 4151, 4⟩, ⟨0x4b545952, 544, 0⟩, ⟨0x5041554e, 21, 2⟩, ⟨0x50414455, 22, 2⟩, ⟨0x32585338, 929, 0⟩, ⟨0x4b555641, 942, 0⟩, -- KUTA KTUP KTCL KNXP KTWF KTYR PAUN PADU 2XS8 KUVA
  ⟨0x4b454745, 6540, 4⟩, ⟨0x50415644, 118, 2⟩, ⟨0x564c445a, 0, 2⟩, ⟨0x4b564144, 233, 1⟩, ⟨0x4b564c44, 203, 1⟩, ⟨0x4b565053, 87, 0⟩, ⟨0x4b564e59, 802, 3⟩, ⟨0x4b564e57, 787, 1⟩, ⟨0x50415645, 574, 2⟩, ⟨0x4b564e43, 18, 1⟩, -- KEGE PAVD VLDZ KVAD KVLD KVPS KVNY KVNW PAVE KVNC
  ⟨0x4b56454c, 5278, 4⟩, ⟨0x4b565242, 24, 1⟩, ⟨0x4b564354, 115, 0⟩, ⟨0x4b564356, 2885, 3⟩, ⟨0x32304741, 1110, 1⟩, ⟨0x4b4d5659, 67, 1⟩, ⟨0x4b564953, 295, 3⟩, ⟨0x4b414354, 516, 0⟩, ⟨0x4b434e57, 470, 0⟩, ⟨0x50484849, 837, 5⟩, -- KVEL KVRB KVCT KVCV 20GA KMVY KVIS KACT KCNW PHHI
  ⟨0x48493037, 109, 5⟩, ⟨0x50415749, 41, 2⟩, ⟨0x50414957, 22, 2⟩, ⟨0x4b414c57, 1191, 3⟩, ⟨0x4b57414c, 40, 1⟩, ⟨0x4b415357, 850, 1⟩, ⟨0x4b575354, 81, 1⟩, ⟨0x44434253, 0, 1⟩, ⟨0x4b444341, 15, 1⟩, ⟨0x4b494144, 313, 1⟩, -- HI07 PAWI PAIW KALW KWAL KASW KWST DCBS KDCA KIAD
  ⟨0x4b435741, 840, 0⟩, ⟨0x4b414c4f, 873, 0⟩, ⟨0x4b415254, 325, 1⟩, ⟨0x4b415459, 1748, 0⟩, ⟨0x4b50435a, 840, 0⟩, ⟨0x4b454754, 1277, 0⟩, ⟨0x4b454154, 1249, 3⟩, ⟨0x4b454e56, 4237, 4⟩, ⟨0x4b445041, 758, 0⟩, ⟨0x4b4f514e, 466, 1⟩, -- KCWA KALO KART KATY KPCZ KEGT KEAT KENV KDPA KOQN
  ⟨0x4b464f4b, 67, 1⟩, ⟨0x4b4c4e41, 14, 1⟩, ⟨0x4b504249, 19, 1⟩, ⟨0x4b575953, 6644, 4⟩, ⟨0x4b424146, 270, 1⟩, ⟨0x4b534844, 1201, 1⟩, ⟨0x4b4e5557, 47, 3⟩, ⟨0x5041574d, 267, 2⟩, ⟨0x4b48504e, 439, 1⟩, ⟨0x57504c4e, 213, 1⟩, -- KFOK KLNA KPBI KWYS KBAF KSHD KNUW PAWM KHPN WPLN
  ⟨0x4b575344, 3934, 4⟩, ⟨0x50415752, 30, 2⟩, ⟨0x57484954, 0, 2⟩, ⟨0x4b535053, 1019, 0⟩, ⟨0x4b424543, 1409, 0⟩, ⟨0x4b494142, 1371, 0⟩, ⟨0x4b494354, 1333, 0⟩, ⟨0x4b453235, 2377, 6⟩, ⟨0x4b575744, 23, 1⟩, ⟨0x4b574257, 543, 1⟩, -- KWSD PAWR WHIT KSPS KBEC KIAB KICT KE25 KWWD KWBW
  ⟨0x574b4252, 525, 1⟩, ⟨0x4b534443, 424, 1⟩, ⟨0x4b495054, 529, 1⟩, ⟨0x57535054, 518, 1⟩, ⟨0x4b494a44, 246, 1⟩, ⟨0x4b49534e, 1982, 0⟩, ⟨0x4b4c4e4e, 626, 1⟩, ⟨0x4b4e5858, 358, 1⟩, ⟨0x4b494c47, 79, 1⟩, ⟨0x4b494c4d, 32, 1⟩, -- WKBR KSDC KIPT WSPT KIJD KISN KLNN KNXX KILG KILM
  ⟨0x4b494c4e, 1077, 1⟩, ⟨0x4b574452, 943, 1⟩, ⟨0x4b4d574d, 1410, 0⟩, ⟨0x4b42444c, 173, 1⟩, ⟨0x4b494e4b, 2822, 0⟩, ⟨0x4b464457, 577, 1⟩, ⟨0x4b494e57, 4941, 6⟩, ⟨0x4b494e54, 969, 1⟩, ⟨0x4b474946, 145, 1⟩, ⟨0x4b495357, 1021, 0⟩] -- KILN KWDR KMWM KBDL KINK KFDW KINW KINT KGIF KISW

/-- lines 1301 to 1315 of those with `country=United States` -/
def us13 : List Airport := [
  ⟨0x4b4f4c46, 1986, 4⟩, ⟨0x4b4f5248, 1009, 1⟩, ⟨0x4b57524c, 4227, 4⟩, ⟨0x50415747, 44, 2⟩, ⟨0x4b575249, 131, 1⟩, ⟨0x4b4c4857, 45, 1⟩, ⟨0x50414359, 12, 2⟩, ⟨0x4b594b4d, 1095, 3⟩, ⟨0x4b594b4e, 1200, 0⟩, ⟨0x4b594e47, 1196, 1⟩, -- KOLF KORH KWRL PAWG KWRI KLHW PACY KYKM KYKN KYNG
  ⟨0x4b4d5956, 62, 3⟩, ⟨0x4b59554d, 216, 6⟩, ⟨0x4b504a43, 898, 1⟩, ⟨0x4b5a5048, 90, 1⟩, ⟨0x4b5a554e, 6454, 4⟩] -- KMYV KYUM KPJC KZPH KZUN

/-- misc/airports.sh: the lines with `country=United States`, in order -/
def usAirports : List Airport := us0 ++ us1 ++ us2 ++ us3 ++ us4 ++ us5 ++ us6 ++ us7 ++ us8 ++ us9 ++ us10 ++ us11 ++ us12 ++ us13

end Starbow.Props
