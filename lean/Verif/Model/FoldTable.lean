/- Generated by tools/gen_tables.py from /repo/commonmark/normalize_reference.py:63-91
(the argument of `_parse_table`): the raw table and its decoded ranges
(first, last, stride, delta, suffix).  `Verif.Proofs.Fold` proves that decoding the raw
table with the model of `_parse_table` gives exactly these ranges. -/
namespace CM

/-- The raw table in pieces. -/
def foldRaw : List String :=
  ["1t:p:-w;37:-kn;a:m:kn;n:6:;6:3w,37;w:1a:-31:2;1b:5k,lj;1:4:-5k:2;6:e::2;f:-aa,32",
  ";:18:aa:2;19:3e;:4:-3e:2;5:7h;1:-da;:2:5t:2;3:-5p;:5p;1:1:-5o;1:5o;2:-26;:-3f;:-",
  "1;:5m;1:-5o;:-2;1:-4;:2;:5s;3:-5u;:-2;1:-1;:4:5x:2;5:-61;:61;1:-61;2:61;1:-61;:6",
  "1;1:1:-60;1:2:60:2;3:-62;:4:62:4;b:-1;:1;1:-1;:1;1:-1;:g:1:2;i:g::2;h:av,lo;:-aw",
  ";:2:1:2;3:2q;:-15;:12:-1l:2;13:3n;1:g:-3n:2;n:-8bu;:8bu;1:4k;:-8gb;2:8br;1:5g;:-",
  "7c;:-2;:8:1y:2;72:-37;16:2:37:2;5:;8:-37;6:26;1:2:1;3:-r;1:1:1;1:m,lk,ld;:g:9;h:",
  "8:;c:b,lk,ld;h:k;c:-7;:12;:-5;3:-a;:7;1:m:-n:2;n:1j;:-6;2:c;:4;1:-1t;1:8;:-8;2:2",
  ":3n;2:f:-5u;f:v:1c;27:w:v:2;15:1g::2;1h:-e;:c:e:2;e:2m::2;2o:11:-1b;2d:2a,136;26",
  "w:11:-5mq;12:6::6;mo:5:5m0;1on:4sm;:-1;:-9;:1:-2;1:1;:-7;:-o;:-vzb;7:16:tj7;18:2",
  ":;8y:44:-2bl:2;45:5yn,mp;:-b,lk;:-2,lm;:-1,lm;:p,ji;:-5xb;2:5wx,37;1:2m:-5yk:2;2",
  "v:7:9;f:5:;f:7:;f:7:;f:5:;7:5fn,lv;1:2,lv,lc;1:2,lv,ld;1:2,lv,n6;2:6:-5ft:2;e:7:",
  ";n:7:3c,qh;7:7:8,qh;7:7:-o,qh;7:7:8,qh;7:7:-1k,qh;7:7:8,qh;9:-6,qh;:5hc,qh;:6,qh",
  ";1:-3,n6;:1,n6,qh;:1:-5j2;1:1:1u;1:5hd,qh;1:-6;3:-5h3,qh;:5ha,qh;:a,qh;1:-7,n6;:",
  "1,n6,qh;:3:-5h6;3:5hb,qh;5:4,lk,lc;:1,lk,ld;2:3,n6;:1,lk,n6;:1:-5jq;1:1:2k;7:5h5",
  ",lk,lc;:1,lk,ld;:5,lv;1:-2,n6;:1,lk,n6;:1:-5ju;1:1:2w;1:-2x;5:33,qh;:5h0,qh;:-4,",
  "qh;1:7,n6;:1,n6,qh;:1:-5gu;1:1:-2;1:5h1,qh;89:8a;3:o2;:-3d;6:-6ea;19:f:c;y:f;mq:",
  "p:-p;1ft:1a:-m;2n:1b;1:8ag;:-5ch;:5c1;2:4:-8a0:2;5:8bh;:-v;:y;:-1;1:3:-8bj:3;b:1",
  ":8cg;1:2q:-8cg:2;2y:2::2;6:nym::nym;nyn:16::2;1p:q::2;4h:c::2;f:1o::2;1y:2::2;3:",
  "r9h;:8:-r9h:2;c:;1:wmh;2:2:-wmh:2;5:i::2;j:wn9;:b;:-4;:-a;:3;1:-1e;:o;:-l;:-xbp;",
  ":a:pr:2;d:;1:1d;:wlv;:-5cb;q1:27:2oo;fpr:jii,2u;:1,2x;:1,30;:1,2u,2x;:1,2u,30;:-",
  "c,38;:1,38;c:-z8,12u;:1,12d;:1,12j;:-9,12u;:b,12l;sp:p:-1cjn;ym:13:-8;4v:z:;1jj:",
  "1e:-o;2e7:v:w;gwv:v:;o8v:x:-2"]

def foldRanges0 : List (Nat × Nat × Nat × Int × List Nat) := [
  (65, 90, 1, 32, []), (181, 181, 1, 775, []), (192, 214, 1, 32, []), (216, 222, 1, 32, []),
  (223, 223, 1, -108, [115]), (256, 302, 2, 1, []), (304, 304, 1, -199, [775]),
  (306, 310, 2, 1, []), (313, 327, 2, 1, []), (329, 329, 1, 371, [110]), (330, 374, 2, 1, []),
  (376, 376, 1, -121, []), (377, 381, 2, 1, []), (383, 383, 1, -268, []), (385, 385, 1, 210, []),
  (386, 388, 2, 1, []), (390, 390, 1, 206, []), (391, 391, 1, 1, []), (393, 394, 1, 205, []),
  (395, 395, 1, 1, []), (398, 398, 1, 79, []), (399, 399, 1, 202, []), (400, 400, 1, 203, []),
  (401, 401, 1, 1, []), (403, 403, 1, 205, []), (404, 404, 1, 207, []), (406, 406, 1, 211, []),
  (407, 407, 1, 209, []), (408, 408, 1, 1, []), (412, 412, 1, 211, []), (413, 413, 1, 213, []),
  (415, 415, 1, 214, []), (416, 420, 2, 1, []), (422, 422, 1, 218, []), (423, 423, 1, 1, []),
  (425, 425, 1, 218, []), (428, 428, 1, 1, []), (430, 430, 1, 218, []), (431, 431, 1, 1, []),
  (433, 434, 1, 217, []), (435, 437, 2, 1, []), (439, 439, 1, 219, []), (440, 444, 4, 1, []),
  (452, 452, 1, 2, []), (453, 453, 1, 1, []), (455, 455, 1, 2, []), (456, 456, 1, 1, []),
  (458, 458, 1, 2, []), (459, 475, 2, 1, []), (478, 494, 2, 1, []), (496, 496, 1, -390, [780]),
  (497, 497, 1, 2, []), (498, 500, 2, 1, []), (502, 502, 1, -97, []), (503, 503, 1, -56, []),
  (504, 542, 2, 1, []), (544, 544, 1, -130, []), (546, 562, 2, 1, []), (570, 570, 1, 10795, []),
  (571, 571, 1, 1, []), (573, 573, 1, -163, []), (574, 574, 1, 10792, []), (577, 577, 1, 1, []),
  (579, 579, 1, -195, []), (580, 580, 1, 69, []), (581, 581, 1, 71, []), (582, 590, 2, 1, []),
  (837, 837, 1, 116, []), (880, 882, 2, 1, []), (886, 886, 1, 1, []), (895, 895, 1, 116, []),
  (902, 902, 1, 38, []), (904, 906, 1, 37, []), (908, 908, 1, 64, []), (910, 911, 1, 63, []),
  (912, 912, 1, 41, [776, 769]), (913, 929, 1, 32, []), (931, 939, 1, 32, []),
  (944, 944, 1, 21, [776, 769]), (962, 962, 1, 1, []), (975, 975, 1, 8, []),
  (976, 976, 1, -30, []), (977, 977, 1, -25, []), (981, 981, 1, -15, []), (982, 982, 1, -22, []),
  (984, 1006, 2, 1, []), (1008, 1008, 1, -54, []), (1009, 1009, 1, -48, []),
  (1012, 1012, 1, -60, []), (1013, 1013, 1, -64, []), (1015, 1015, 1, 1, []),
  (1017, 1017, 1, -7, []), (1018, 1018, 1, 1, []), (1021, 1023, 1, -130, []),
  (1024, 1039, 1, 80, []), (1040, 1071, 1, 32, []), (1120, 1152, 2, 1, []), (1162, 1214, 2, 1, []),
  (1216, 1216, 1, 15, []), (1217, 1229, 2, 1, [])]

def foldRanges1 : List (Nat × Nat × Nat × Int × List Nat) := [
  (1232, 1326, 2, 1, []), (1329, 1366, 1, 48, []), (1415, 1415, 1, -34, [1410]),
  (4256, 4293, 1, 7264, []), (4295, 4301, 6, 7264, []), (5112, 5117, 1, -8, []),
  (7296, 7296, 1, -6222, []), (7297, 7297, 1, -6221, []), (7298, 7298, 1, -6212, []),
  (7299, 7300, 1, -6210, []), (7301, 7301, 1, -6211, []), (7302, 7302, 1, -6204, []),
  (7303, 7303, 1, -6180, []), (7304, 7304, 1, 35267, []), (7312, 7354, 1, -3008, []),
  (7357, 7359, 1, -3008, []), (7680, 7828, 2, 1, []), (7830, 7830, 1, -7726, [817]),
  (7831, 7831, 1, -7715, [776]), (7832, 7832, 1, -7713, [778]), (7833, 7833, 1, -7712, [778]),
  (7834, 7834, 1, -7737, [702]), (7835, 7835, 1, -58, []), (7838, 7838, 1, -7723, [115]),
  (7840, 7934, 2, 1, []), (7944, 7951, 1, -8, []), (7960, 7965, 1, -8, []),
  (7976, 7983, 1, -8, []), (7992, 7999, 1, -8, []), (8008, 8013, 1, -8, []),
  (8016, 8016, 1, -7051, [787]), (8018, 8018, 1, -7053, [787, 768]),
  (8020, 8020, 1, -7055, [787, 769]), (8022, 8022, 1, -7057, [787, 834]), (8025, 8031, 2, -8, []),
  (8040, 8047, 1, -8, []), (8064, 8071, 1, -128, [953]), (8072, 8079, 1, -136, [953]),
  (8080, 8087, 1, -112, [953]), (8088, 8095, 1, -120, [953]), (8096, 8103, 1, -64, [953]),
  (8104, 8111, 1, -72, [953]), (8114, 8114, 1, -66, [953]), (8115, 8115, 1, -7170, [953]),
  (8116, 8116, 1, -7176, [953]), (8118, 8118, 1, -7173, [834]), (8119, 8119, 1, -7174, [834, 953]),
  (8120, 8121, 1, -8, []), (8122, 8123, 1, -74, []), (8124, 8124, 1, -7179, [953]),
  (8126, 8126, 1, -7173, []), (8130, 8130, 1, -78, [953]), (8131, 8131, 1, -7180, [953]),
  (8132, 8132, 1, -7190, [953]), (8134, 8134, 1, -7183, [834]), (8135, 8135, 1, -7184, [834, 953]),
  (8136, 8139, 1, -86, []), (8140, 8140, 1, -7189, [953]), (8146, 8146, 1, -7193, [776, 768]),
  (8147, 8147, 1, -7194, [776, 769]), (8150, 8150, 1, -7197, [834]),
  (8151, 8151, 1, -7198, [776, 834]), (8152, 8153, 1, -8, []), (8154, 8155, 1, -100, []),
  (8162, 8162, 1, -7197, [776, 768]), (8163, 8163, 1, -7198, [776, 769]),
  (8164, 8164, 1, -7203, [787]), (8166, 8166, 1, -7201, [834]), (8167, 8167, 1, -7202, [776, 834]),
  (8168, 8169, 1, -8, []), (8170, 8171, 1, -112, []), (8172, 8172, 1, -7, []),
  (8178, 8178, 1, -118, [953]), (8179, 8179, 1, -7210, [953]), (8180, 8180, 1, -7206, [953]),
  (8182, 8182, 1, -7213, [834]), (8183, 8183, 1, -7214, [834, 953]), (8184, 8185, 1, -128, []),
  (8186, 8187, 1, -126, []), (8188, 8188, 1, -7219, [953]), (8486, 8486, 1, -7517, []),
  (8490, 8490, 1, -8383, []), (8491, 8491, 1, -8262, []), (8498, 8498, 1, 28, []),
  (8544, 8559, 1, 16, []), (8579, 8579, 1, 1, []), (9398, 9423, 1, 26, []),
  (11264, 11310, 1, 48, []), (11360, 11360, 1, 1, []), (11362, 11362, 1, -10743, []),
  (11363, 11363, 1, -3814, []), (11364, 11364, 1, -10727, []), (11367, 11371, 2, 1, []),
  (11373, 11373, 1, -10780, []), (11374, 11374, 1, -10749, []), (11375, 11375, 1, -10783, []),
  (11376, 11376, 1, -10782, []), (11378, 11381, 3, 1, []), (11390, 11391, 1, -10815, []),
  (11392, 11490, 2, 1, [])]

def foldRanges2 : List (Nat × Nat × Nat × Int × List Nat) := [
  (11499, 11501, 2, 1, []), (11506, 42560, 31054, 1, []), (42562, 42604, 2, 1, []),
  (42624, 42650, 2, 1, []), (42786, 42798, 2, 1, []), (42802, 42862, 2, 1, []),
  (42873, 42875, 2, 1, []), (42877, 42877, 1, -35332, []), (42878, 42886, 2, 1, []),
  (42891, 42891, 1, 1, []), (42893, 42893, 1, -42280, []), (42896, 42898, 2, 1, []),
  (42902, 42920, 2, 1, []), (42922, 42922, 1, -42308, []), (42923, 42923, 1, -42319, []),
  (42924, 42924, 1, -42315, []), (42925, 42925, 1, -42305, []), (42926, 42926, 1, -42308, []),
  (42928, 42928, 1, -42258, []), (42929, 42929, 1, -42282, []), (42930, 42930, 1, -42261, []),
  (42931, 42931, 1, 928, []), (42932, 42942, 2, 1, []), (42946, 42946, 1, 1, []),
  (42948, 42948, 1, -48, []), (42949, 42949, 1, -42307, []), (42950, 42950, 1, -35384, []),
  (43888, 43967, 1, -38864, []), (64256, 64256, 1, -64154, [102]),
  (64257, 64257, 1, -64155, [105]), (64258, 64258, 1, -64156, [108]),
  (64259, 64259, 1, -64157, [102, 105]), (64260, 64260, 1, -64158, [102, 108]),
  (64261, 64261, 1, -64146, [116]), (64262, 64262, 1, -64147, [116]),
  (64275, 64275, 1, -62879, [1398]), (64276, 64276, 1, -62880, [1381]),
  (64277, 64277, 1, -62881, [1387]), (64278, 64278, 1, -62872, [1398]),
  (64279, 64279, 1, -62883, [1389]), (65313, 65338, 1, 32, []), (66560, 66599, 1, 40, []),
  (66736, 66771, 1, 40, []), (68736, 68786, 1, 64, []), (71840, 71871, 1, 32, []),
  (93760, 93791, 1, 32, []), (125184, 125217, 1, 34, [])]

def foldRanges : List (Nat × Nat × Nat × Int × List Nat) :=
  foldRanges0 ++
  foldRanges1 ++
  foldRanges2

end CM
