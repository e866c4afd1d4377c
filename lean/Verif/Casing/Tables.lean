import Verif.Casing.Model

/-!
The case conversion tables of `case_tables.cpp`, copied row by row. They were written by
`generate_case_tables.pl` from the Unicode files; nothing is sorted or corrected here.
-/
namespace Verif.Casing
open Verif

/-- `LOWER_CASE_RANGES`, case_tables.cpp 6-158. -/
def lowerRanges : List Range :=
  [⟨65, 90, 32⟩, ⟨192, 214, 32⟩, ⟨216, 222, 32⟩, ⟨256, 302, evenOddSkip⟩, ⟨304, 304, -199⟩,
   ⟨306, 310, evenOddSkip⟩, ⟨313, 327, oddEvenSkip⟩, ⟨330, 374, evenOddSkip⟩, ⟨376, 376, -121⟩,
   ⟨377, 381, oddEvenSkip⟩, ⟨385, 385, 210⟩, ⟨386, 388, evenOddSkip⟩, ⟨390, 390, 206⟩,
   ⟨391, 391, oddEven⟩, ⟨393, 394, 205⟩, ⟨395, 395, oddEven⟩, ⟨398, 398, 79⟩, ⟨399, 399, 202⟩,
   ⟨400, 400, 203⟩, ⟨401, 401, oddEven⟩, ⟨403, 403, 205⟩, ⟨404, 404, 207⟩, ⟨406, 406, 211⟩,
   ⟨407, 407, 209⟩, ⟨408, 408, evenOdd⟩, ⟨412, 412, 211⟩, ⟨413, 413, 213⟩, ⟨415, 415, 214⟩,
   ⟨416, 420, evenOddSkip⟩, ⟨422, 422, 218⟩, ⟨423, 423, oddEven⟩, ⟨425, 425, 218⟩,
   ⟨428, 428, evenOdd⟩, ⟨430, 430, 218⟩, ⟨431, 431, oddEven⟩, ⟨433, 434, 217⟩,
   ⟨435, 437, oddEvenSkip⟩, ⟨439, 439, 219⟩, ⟨440, 440, evenOdd⟩, ⟨444, 444, evenOdd⟩,
   ⟨452, 452, 2⟩, ⟨453, 453, oddEven⟩, ⟨455, 455, 2⟩, ⟨456, 456, evenOdd⟩, ⟨458, 458, 2⟩,
   ⟨459, 475, oddEvenSkip⟩, ⟨478, 494, evenOddSkip⟩, ⟨497, 497, 2⟩, ⟨498, 500, evenOddSkip⟩,
   ⟨502, 502, -97⟩, ⟨503, 503, -56⟩, ⟨504, 542, evenOddSkip⟩, ⟨544, 544, -130⟩,
   ⟨546, 562, evenOddSkip⟩, ⟨570, 570, 10795⟩, ⟨571, 571, oddEven⟩, ⟨573, 573, -163⟩,
   ⟨574, 574, 10792⟩, ⟨577, 577, oddEven⟩, ⟨579, 579, -195⟩, ⟨580, 580, 69⟩, ⟨581, 581, 71⟩,
   ⟨582, 590, evenOddSkip⟩, ⟨880, 882, evenOddSkip⟩, ⟨886, 886, evenOdd⟩, ⟨902, 902, 38⟩,
   ⟨904, 906, 37⟩, ⟨908, 908, 64⟩, ⟨910, 911, 63⟩, ⟨913, 929, 32⟩, ⟨931, 939, 32⟩, ⟨975, 975, 8⟩,
   ⟨984, 1006, evenOddSkip⟩, ⟨1012, 1012, -60⟩, ⟨1015, 1015, oddEven⟩, ⟨1017, 1017, -7⟩,
   ⟨1018, 1018, evenOdd⟩, ⟨1021, 1023, -130⟩, ⟨1024, 1039, 80⟩, ⟨1040, 1071, 32⟩,
   ⟨1120, 1152, evenOddSkip⟩, ⟨1162, 1214, evenOddSkip⟩, ⟨1216, 1216, 15⟩,
   ⟨1217, 1229, oddEvenSkip⟩, ⟨1232, 1318, evenOddSkip⟩, ⟨1329, 1366, 48⟩, ⟨4256, 4293, 7264⟩,
   ⟨7680, 7828, evenOddSkip⟩, ⟨7838, 7838, -7615⟩, ⟨7840, 7934, evenOddSkip⟩, ⟨7944, 7951, -8⟩,
   ⟨7960, 7965, -8⟩, ⟨7976, 7983, -8⟩, ⟨7992, 7999, -8⟩, ⟨8008, 8013, -8⟩, ⟨8025, 8025, -8⟩,
   ⟨8027, 8027, -8⟩, ⟨8029, 8029, -8⟩, ⟨8031, 8031, -8⟩, ⟨8040, 8047, -8⟩, ⟨8072, 8079, -8⟩,
   ⟨8088, 8095, -8⟩, ⟨8104, 8111, -8⟩, ⟨8120, 8121, -8⟩, ⟨8122, 8123, -74⟩, ⟨8124, 8124, -9⟩,
   ⟨8136, 8139, -86⟩, ⟨8140, 8140, -9⟩, ⟨8152, 8153, -8⟩, ⟨8154, 8155, -100⟩, ⟨8168, 8169, -8⟩,
   ⟨8170, 8171, -112⟩, ⟨8172, 8172, -7⟩, ⟨8184, 8185, -128⟩, ⟨8186, 8187, -126⟩,
   ⟨8188, 8188, -9⟩, ⟨8486, 8486, -7517⟩, ⟨8490, 8490, -8383⟩, ⟨8491, 8491, -8262⟩,
   ⟨8498, 8498, 28⟩, ⟨8544, 8559, 16⟩, ⟨8579, 8579, oddEven⟩, ⟨9398, 9423, 26⟩,
   ⟨11264, 11310, 48⟩, ⟨11360, 11360, evenOdd⟩, ⟨11362, 11362, -10743⟩, ⟨11363, 11363, -3814⟩,
   ⟨11364, 11364, -10727⟩, ⟨11367, 11371, oddEvenSkip⟩, ⟨11373, 11373, -10780⟩,
   ⟨11374, 11374, -10749⟩, ⟨11375, 11375, -10783⟩, ⟨11376, 11376, -10782⟩,
   ⟨11378, 11378, evenOdd⟩, ⟨11381, 11381, oddEven⟩, ⟨11390, 11391, -10815⟩,
   ⟨11392, 11490, evenOddSkip⟩, ⟨11499, 11501, oddEvenSkip⟩, ⟨42560, 42604, evenOddSkip⟩,
   ⟨42624, 42646, evenOddSkip⟩, ⟨42786, 42798, evenOddSkip⟩, ⟨42802, 42862, evenOddSkip⟩,
   ⟨42873, 42875, oddEvenSkip⟩, ⟨42877, 42877, -35332⟩, ⟨42878, 42886, evenOddSkip⟩,
   ⟨42891, 42891, oddEven⟩, ⟨42893, 42893, -42280⟩, ⟨42896, 42896, evenOdd⟩,
   ⟨42912, 42920, evenOddSkip⟩, ⟨65313, 65338, 32⟩, ⟨66560, 66599, 40⟩]

/-- `UPPER_CASE_RANGES`, case_tables.cpp 160-322. -/
def upperRanges : List Range :=
  [⟨97, 122, -32⟩, ⟨181, 181, 743⟩, ⟨224, 246, -32⟩, ⟨248, 254, -32⟩, ⟨255, 255, 121⟩,
   ⟨257, 303, evenOddSkip⟩, ⟨305, 305, -232⟩, ⟨307, 311, evenOddSkip⟩, ⟨314, 328, oddEvenSkip⟩,
   ⟨331, 375, evenOddSkip⟩, ⟨378, 382, oddEvenSkip⟩, ⟨383, 383, -300⟩, ⟨384, 384, 195⟩,
   ⟨387, 389, evenOddSkip⟩, ⟨392, 392, oddEven⟩, ⟨396, 396, oddEven⟩, ⟨402, 402, oddEven⟩,
   ⟨405, 405, 97⟩, ⟨409, 409, evenOdd⟩, ⟨410, 410, 163⟩, ⟨414, 414, 130⟩,
   ⟨417, 421, evenOddSkip⟩, ⟨424, 424, oddEven⟩, ⟨429, 429, evenOdd⟩, ⟨432, 432, oddEven⟩,
   ⟨436, 438, oddEvenSkip⟩, ⟨441, 441, evenOdd⟩, ⟨445, 445, evenOdd⟩, ⟨447, 447, 56⟩,
   ⟨453, 453, evenOdd⟩, ⟨454, 454, -2⟩, ⟨456, 456, oddEven⟩, ⟨457, 457, -2⟩, ⟨459, 459, evenOdd⟩,
   ⟨460, 460, -2⟩, ⟨462, 476, oddEvenSkip⟩, ⟨477, 477, -79⟩, ⟨479, 495, evenOddSkip⟩,
   ⟨498, 498, oddEven⟩, ⟨499, 499, -2⟩, ⟨501, 501, evenOdd⟩, ⟨505, 543, evenOddSkip⟩,
   ⟨547, 563, evenOddSkip⟩, ⟨572, 572, oddEven⟩, ⟨575, 576, 10815⟩, ⟨578, 578, oddEven⟩,
   ⟨583, 591, evenOddSkip⟩, ⟨592, 592, 10783⟩, ⟨593, 593, 10780⟩, ⟨594, 594, 10782⟩,
   ⟨595, 595, -210⟩, ⟨596, 596, -206⟩, ⟨598, 599, -205⟩, ⟨601, 601, -202⟩, ⟨603, 603, -203⟩,
   ⟨608, 608, -205⟩, ⟨611, 611, -207⟩, ⟨613, 613, 42280⟩, ⟨616, 616, -209⟩, ⟨617, 617, -211⟩,
   ⟨619, 619, 10743⟩, ⟨623, 623, -211⟩, ⟨625, 625, 10749⟩, ⟨626, 626, -213⟩, ⟨629, 629, -214⟩,
   ⟨637, 637, 10727⟩, ⟨640, 640, -218⟩, ⟨643, 643, -218⟩, ⟨648, 648, -218⟩, ⟨649, 649, -69⟩,
   ⟨650, 651, -217⟩, ⟨652, 652, -71⟩, ⟨658, 658, -219⟩, ⟨837, 837, 84⟩, ⟨881, 883, evenOddSkip⟩,
   ⟨887, 887, evenOdd⟩, ⟨891, 893, 130⟩, ⟨940, 940, -38⟩, ⟨941, 943, -37⟩, ⟨945, 961, -32⟩,
   ⟨962, 962, -31⟩, ⟨963, 971, -32⟩, ⟨972, 972, -64⟩, ⟨973, 974, -63⟩, ⟨976, 976, -62⟩,
   ⟨977, 977, -57⟩, ⟨981, 981, -47⟩, ⟨982, 982, -54⟩, ⟨983, 983, -8⟩, ⟨985, 1007, evenOddSkip⟩,
   ⟨1008, 1008, -86⟩, ⟨1009, 1009, -80⟩, ⟨1010, 1010, 7⟩, ⟨1013, 1013, -96⟩,
   ⟨1016, 1016, oddEven⟩, ⟨1019, 1019, evenOdd⟩, ⟨1072, 1103, -32⟩, ⟨1104, 1119, -80⟩,
   ⟨1121, 1153, evenOddSkip⟩, ⟨1163, 1215, evenOddSkip⟩, ⟨1218, 1230, oddEvenSkip⟩,
   ⟨1231, 1231, -15⟩, ⟨1233, 1319, evenOddSkip⟩, ⟨1377, 1414, -48⟩, ⟨7545, 7545, 35332⟩,
   ⟨7549, 7549, 3814⟩, ⟨7681, 7829, evenOddSkip⟩, ⟨7835, 7835, -59⟩, ⟨7841, 7935, evenOddSkip⟩,
   ⟨7936, 7943, 8⟩, ⟨7952, 7957, 8⟩, ⟨7968, 7975, 8⟩, ⟨7984, 7991, 8⟩, ⟨8000, 8005, 8⟩,
   ⟨8017, 8017, 8⟩, ⟨8019, 8019, 8⟩, ⟨8021, 8021, 8⟩, ⟨8023, 8023, 8⟩, ⟨8032, 8039, 8⟩,
   ⟨8048, 8049, 74⟩, ⟨8050, 8053, 86⟩, ⟨8054, 8055, 100⟩, ⟨8056, 8057, 128⟩, ⟨8058, 8059, 112⟩,
   ⟨8060, 8061, 126⟩, ⟨8064, 8071, 8⟩, ⟨8080, 8087, 8⟩, ⟨8096, 8103, 8⟩, ⟨8112, 8113, 8⟩,
   ⟨8115, 8115, 9⟩, ⟨8126, 8126, -7205⟩, ⟨8131, 8131, 9⟩, ⟨8144, 8145, 8⟩, ⟨8160, 8161, 8⟩,
   ⟨8165, 8165, 7⟩, ⟨8179, 8179, 9⟩, ⟨8526, 8526, -28⟩, ⟨8560, 8575, -16⟩, ⟨8580, 8580, oddEven⟩,
   ⟨9424, 9449, -26⟩, ⟨11312, 11358, -48⟩, ⟨11361, 11361, evenOdd⟩, ⟨11365, 11365, -10795⟩,
   ⟨11366, 11366, -10792⟩, ⟨11368, 11372, oddEvenSkip⟩, ⟨11379, 11379, evenOdd⟩,
   ⟨11382, 11382, oddEven⟩, ⟨11393, 11491, evenOddSkip⟩, ⟨11500, 11502, oddEvenSkip⟩,
   ⟨11520, 11557, -7264⟩, ⟨42561, 42605, evenOddSkip⟩, ⟨42625, 42647, evenOddSkip⟩,
   ⟨42787, 42799, evenOddSkip⟩, ⟨42803, 42863, evenOddSkip⟩, ⟨42874, 42876, oddEvenSkip⟩,
   ⟨42879, 42887, evenOddSkip⟩, ⟨42892, 42892, oddEven⟩, ⟨42897, 42897, evenOdd⟩,
   ⟨42913, 42921, evenOddSkip⟩, ⟨65345, 65370, -32⟩, ⟨66600, 66639, -40⟩]

/-- `TITLE_CASE_RANGES`, case_tables.cpp 324-486. -/
def titleRanges : List Range :=
  [⟨97, 122, -32⟩, ⟨181, 181, 743⟩, ⟨224, 246, -32⟩, ⟨248, 254, -32⟩, ⟨255, 255, 121⟩,
   ⟨257, 303, evenOddSkip⟩, ⟨305, 305, -232⟩, ⟨307, 311, evenOddSkip⟩, ⟨314, 328, oddEvenSkip⟩,
   ⟨331, 375, evenOddSkip⟩, ⟨378, 382, oddEvenSkip⟩, ⟨383, 383, -300⟩, ⟨384, 384, 195⟩,
   ⟨387, 389, evenOddSkip⟩, ⟨392, 392, oddEven⟩, ⟨396, 396, oddEven⟩, ⟨402, 402, oddEven⟩,
   ⟨405, 405, 97⟩, ⟨409, 409, evenOdd⟩, ⟨410, 410, 163⟩, ⟨414, 414, 130⟩,
   ⟨417, 421, evenOddSkip⟩, ⟨424, 424, oddEven⟩, ⟨429, 429, evenOdd⟩, ⟨432, 432, oddEven⟩,
   ⟨436, 438, oddEvenSkip⟩, ⟨441, 441, evenOdd⟩, ⟨445, 445, evenOdd⟩, ⟨447, 447, 56⟩,
   ⟨452, 452, evenOdd⟩, ⟨453, 453, 0⟩, ⟨454, 455, oddEven⟩, ⟨456, 456, 0⟩, ⟨457, 458, evenOdd⟩,
   ⟨459, 459, 0⟩, ⟨460, 476, oddEvenSkip⟩, ⟨477, 477, -79⟩, ⟨479, 495, evenOddSkip⟩,
   ⟨497, 497, oddEven⟩, ⟨498, 498, 0⟩, ⟨499, 501, evenOddSkip⟩, ⟨505, 543, evenOddSkip⟩,
   ⟨547, 563, evenOddSkip⟩, ⟨572, 572, oddEven⟩, ⟨575, 576, 10815⟩, ⟨578, 578, oddEven⟩,
   ⟨583, 591, evenOddSkip⟩, ⟨592, 592, 10783⟩, ⟨593, 593, 10780⟩, ⟨594, 594, 10782⟩,
   ⟨595, 595, -210⟩, ⟨596, 596, -206⟩, ⟨598, 599, -205⟩, ⟨601, 601, -202⟩, ⟨603, 603, -203⟩,
   ⟨608, 608, -205⟩, ⟨611, 611, -207⟩, ⟨613, 613, 42280⟩, ⟨616, 616, -209⟩, ⟨617, 617, -211⟩,
   ⟨619, 619, 10743⟩, ⟨623, 623, -211⟩, ⟨625, 625, 10749⟩, ⟨626, 626, -213⟩, ⟨629, 629, -214⟩,
   ⟨637, 637, 10727⟩, ⟨640, 640, -218⟩, ⟨643, 643, -218⟩, ⟨648, 648, -218⟩, ⟨649, 649, -69⟩,
   ⟨650, 651, -217⟩, ⟨652, 652, -71⟩, ⟨658, 658, -219⟩, ⟨837, 837, 84⟩, ⟨881, 883, evenOddSkip⟩,
   ⟨887, 887, evenOdd⟩, ⟨891, 893, 130⟩, ⟨940, 940, -38⟩, ⟨941, 943, -37⟩, ⟨945, 961, -32⟩,
   ⟨962, 962, -31⟩, ⟨963, 971, -32⟩, ⟨972, 972, -64⟩, ⟨973, 974, -63⟩, ⟨976, 976, -62⟩,
   ⟨977, 977, -57⟩, ⟨981, 981, -47⟩, ⟨982, 982, -54⟩, ⟨983, 983, -8⟩, ⟨985, 1007, evenOddSkip⟩,
   ⟨1008, 1008, -86⟩, ⟨1009, 1009, -80⟩, ⟨1010, 1010, 7⟩, ⟨1013, 1013, -96⟩,
   ⟨1016, 1016, oddEven⟩, ⟨1019, 1019, evenOdd⟩, ⟨1072, 1103, -32⟩, ⟨1104, 1119, -80⟩,
   ⟨1121, 1153, evenOddSkip⟩, ⟨1163, 1215, evenOddSkip⟩, ⟨1218, 1230, oddEvenSkip⟩,
   ⟨1231, 1231, -15⟩, ⟨1233, 1319, evenOddSkip⟩, ⟨1377, 1414, -48⟩, ⟨7545, 7545, 35332⟩,
   ⟨7549, 7549, 3814⟩, ⟨7681, 7829, evenOddSkip⟩, ⟨7835, 7835, -59⟩, ⟨7841, 7935, evenOddSkip⟩,
   ⟨7936, 7943, 8⟩, ⟨7952, 7957, 8⟩, ⟨7968, 7975, 8⟩, ⟨7984, 7991, 8⟩, ⟨8000, 8005, 8⟩,
   ⟨8017, 8017, 8⟩, ⟨8019, 8019, 8⟩, ⟨8021, 8021, 8⟩, ⟨8023, 8023, 8⟩, ⟨8032, 8039, 8⟩,
   ⟨8048, 8049, 74⟩, ⟨8050, 8053, 86⟩, ⟨8054, 8055, 100⟩, ⟨8056, 8057, 128⟩, ⟨8058, 8059, 112⟩,
   ⟨8060, 8061, 126⟩, ⟨8064, 8071, 8⟩, ⟨8080, 8087, 8⟩, ⟨8096, 8103, 8⟩, ⟨8112, 8113, 8⟩,
   ⟨8115, 8115, 9⟩, ⟨8126, 8126, -7205⟩, ⟨8131, 8131, 9⟩, ⟨8144, 8145, 8⟩, ⟨8160, 8161, 8⟩,
   ⟨8165, 8165, 7⟩, ⟨8179, 8179, 9⟩, ⟨8526, 8526, -28⟩, ⟨8560, 8575, -16⟩, ⟨8580, 8580, oddEven⟩,
   ⟨9424, 9449, -26⟩, ⟨11312, 11358, -48⟩, ⟨11361, 11361, evenOdd⟩, ⟨11365, 11365, -10795⟩,
   ⟨11366, 11366, -10792⟩, ⟨11368, 11372, oddEvenSkip⟩, ⟨11379, 11379, evenOdd⟩,
   ⟨11382, 11382, oddEven⟩, ⟨11393, 11491, evenOddSkip⟩, ⟨11500, 11502, oddEvenSkip⟩,
   ⟨11520, 11557, -7264⟩, ⟨42561, 42605, evenOddSkip⟩, ⟨42625, 42647, evenOddSkip⟩,
   ⟨42787, 42799, evenOddSkip⟩, ⟨42803, 42863, evenOddSkip⟩, ⟨42874, 42876, oddEvenSkip⟩,
   ⟨42879, 42887, evenOddSkip⟩, ⟨42892, 42892, oddEven⟩, ⟨42897, 42897, evenOdd⟩,
   ⟨42913, 42921, evenOddSkip⟩, ⟨65345, 65370, -32⟩, ⟨66600, 66639, -40⟩]

/-- `LOWER_SPECIAL_CASING`, case_tables.cpp 488-592. -/
def lowerSpecial : List (Nat × Str) :=
  [(223, [195, 159]), (304, [105, 204, 135]), (64256, [239, 172, 128]), (64257, [239, 172, 129]),
   (64258, [239, 172, 130]), (64259, [239, 172, 131]), (64260, [239, 172, 132]),
   (64261, [239, 172, 133]), (64262, [239, 172, 134]), (1415, [214, 135]),
   (64275, [239, 172, 147]), (64276, [239, 172, 148]), (64277, [239, 172, 149]),
   (64278, [239, 172, 150]), (64279, [239, 172, 151]), (329, [197, 137]), (912, [206, 144]),
   (944, [206, 176]), (496, [199, 176]), (7830, [225, 186, 150]), (7831, [225, 186, 151]),
   (7832, [225, 186, 152]), (7833, [225, 186, 153]), (7834, [225, 186, 154]),
   (8016, [225, 189, 144]), (8018, [225, 189, 146]), (8020, [225, 189, 148]),
   (8022, [225, 189, 150]), (8118, [225, 190, 182]), (8134, [225, 191, 134]),
   (8146, [225, 191, 146]), (8147, [225, 191, 147]), (8150, [225, 191, 150]),
   (8151, [225, 191, 151]), (8162, [225, 191, 162]), (8163, [225, 191, 163]),
   (8164, [225, 191, 164]), (8166, [225, 191, 166]), (8167, [225, 191, 167]),
   (8182, [225, 191, 182]), (8064, [225, 190, 128]), (8065, [225, 190, 129]),
   (8066, [225, 190, 130]), (8067, [225, 190, 131]), (8068, [225, 190, 132]),
   (8069, [225, 190, 133]), (8070, [225, 190, 134]), (8071, [225, 190, 135]),
   (8072, [225, 190, 128]), (8073, [225, 190, 129]), (8074, [225, 190, 130]),
   (8075, [225, 190, 131]), (8076, [225, 190, 132]), (8077, [225, 190, 133]),
   (8078, [225, 190, 134]), (8079, [225, 190, 135]), (8080, [225, 190, 144]),
   (8081, [225, 190, 145]), (8082, [225, 190, 146]), (8083, [225, 190, 147]),
   (8084, [225, 190, 148]), (8085, [225, 190, 149]), (8086, [225, 190, 150]),
   (8087, [225, 190, 151]), (8088, [225, 190, 144]), (8089, [225, 190, 145]),
   (8090, [225, 190, 146]), (8091, [225, 190, 147]), (8092, [225, 190, 148]),
   (8093, [225, 190, 149]), (8094, [225, 190, 150]), (8095, [225, 190, 151]),
   (8096, [225, 190, 160]), (8097, [225, 190, 161]), (8098, [225, 190, 162]),
   (8099, [225, 190, 163]), (8100, [225, 190, 164]), (8101, [225, 190, 165]),
   (8102, [225, 190, 166]), (8103, [225, 190, 167]), (8104, [225, 190, 160]),
   (8105, [225, 190, 161]), (8106, [225, 190, 162]), (8107, [225, 190, 163]),
   (8108, [225, 190, 164]), (8109, [225, 190, 165]), (8110, [225, 190, 166]),
   (8111, [225, 190, 167]), (8115, [225, 190, 179]), (8124, [225, 190, 179]),
   (8131, [225, 191, 131]), (8140, [225, 191, 131]), (8179, [225, 191, 179]),
   (8188, [225, 191, 179]), (8114, [225, 190, 178]), (8116, [225, 190, 180]),
   (8130, [225, 191, 130]), (8132, [225, 191, 132]), (8178, [225, 191, 178]),
   (8180, [225, 191, 180]), (8119, [225, 190, 183]), (8135, [225, 191, 135]),
   (8183, [225, 191, 183])]

/-- `TITLE_SPECIAL_CASING`, case_tables.cpp 594-698. -/
def titleSpecial : List (Nat × Str) :=
  [(223, [83, 115]), (304, [196, 176]), (64256, [70, 102]), (64257, [70, 105]),
   (64258, [70, 108]), (64259, [70, 102, 105]), (64260, [70, 102, 108]), (64261, [83, 116]),
   (64262, [83, 116]), (1415, [212, 181, 214, 130]), (64275, [213, 132, 213, 182]),
   (64276, [213, 132, 213, 165]), (64277, [213, 132, 213, 171]), (64278, [213, 142, 213, 182]),
   (64279, [213, 132, 213, 173]), (329, [202, 188, 78]), (912, [206, 153, 204, 136, 204, 129]),
   (944, [206, 165, 204, 136, 204, 129]), (496, [74, 204, 140]), (7830, [72, 204, 177]),
   (7831, [84, 204, 136]), (7832, [87, 204, 138]), (7833, [89, 204, 138]),
   (7834, [65, 202, 190]), (8016, [206, 165, 204, 147]), (8018, [206, 165, 204, 147, 204, 128]),
   (8020, [206, 165, 204, 147, 204, 129]), (8022, [206, 165, 204, 147, 205, 130]),
   (8118, [206, 145, 205, 130]), (8134, [206, 151, 205, 130]),
   (8146, [206, 153, 204, 136, 204, 128]), (8147, [206, 153, 204, 136, 204, 129]),
   (8150, [206, 153, 205, 130]), (8151, [206, 153, 204, 136, 205, 130]),
   (8162, [206, 165, 204, 136, 204, 128]), (8163, [206, 165, 204, 136, 204, 129]),
   (8164, [206, 161, 204, 147]), (8166, [206, 165, 205, 130]),
   (8167, [206, 165, 204, 136, 205, 130]), (8182, [206, 169, 205, 130]), (8064, [225, 190, 136]),
   (8065, [225, 190, 137]), (8066, [225, 190, 138]), (8067, [225, 190, 139]),
   (8068, [225, 190, 140]), (8069, [225, 190, 141]), (8070, [225, 190, 142]),
   (8071, [225, 190, 143]), (8072, [225, 190, 136]), (8073, [225, 190, 137]),
   (8074, [225, 190, 138]), (8075, [225, 190, 139]), (8076, [225, 190, 140]),
   (8077, [225, 190, 141]), (8078, [225, 190, 142]), (8079, [225, 190, 143]),
   (8080, [225, 190, 152]), (8081, [225, 190, 153]), (8082, [225, 190, 154]),
   (8083, [225, 190, 155]), (8084, [225, 190, 156]), (8085, [225, 190, 157]),
   (8086, [225, 190, 158]), (8087, [225, 190, 159]), (8088, [225, 190, 152]),
   (8089, [225, 190, 153]), (8090, [225, 190, 154]), (8091, [225, 190, 155]),
   (8092, [225, 190, 156]), (8093, [225, 190, 157]), (8094, [225, 190, 158]),
   (8095, [225, 190, 159]), (8096, [225, 190, 168]), (8097, [225, 190, 169]),
   (8098, [225, 190, 170]), (8099, [225, 190, 171]), (8100, [225, 190, 172]),
   (8101, [225, 190, 173]), (8102, [225, 190, 174]), (8103, [225, 190, 175]),
   (8104, [225, 190, 168]), (8105, [225, 190, 169]), (8106, [225, 190, 170]),
   (8107, [225, 190, 171]), (8108, [225, 190, 172]), (8109, [225, 190, 173]),
   (8110, [225, 190, 174]), (8111, [225, 190, 175]), (8115, [225, 190, 188]),
   (8124, [225, 190, 188]), (8131, [225, 191, 140]), (8140, [225, 191, 140]),
   (8179, [225, 191, 188]), (8188, [225, 191, 188]), (8114, [225, 190, 186, 205, 133]),
   (8116, [206, 134, 205, 133]), (8130, [225, 191, 138, 205, 133]), (8132, [206, 137, 205, 133]),
   (8178, [225, 191, 186, 205, 133]), (8180, [206, 143, 205, 133]),
   (8119, [206, 145, 205, 130, 205, 133]), (8135, [206, 151, 205, 130, 205, 133]),
   (8183, [206, 169, 205, 130, 205, 133])]

/-- `UPPER_SPECIAL_CASING`, case_tables.cpp 700-804. -/
def upperSpecial : List (Nat × Str) :=
  [(223, [83, 83]), (304, [196, 176]), (64256, [70, 70]), (64257, [70, 73]), (64258, [70, 76]),
   (64259, [70, 70, 73]), (64260, [70, 70, 76]), (64261, [83, 84]), (64262, [83, 84]),
   (1415, [212, 181, 213, 146]), (64275, [213, 132, 213, 134]), (64276, [213, 132, 212, 181]),
   (64277, [213, 132, 212, 187]), (64278, [213, 142, 213, 134]), (64279, [213, 132, 212, 189]),
   (329, [202, 188, 78]), (912, [206, 153, 204, 136, 204, 129]),
   (944, [206, 165, 204, 136, 204, 129]), (496, [74, 204, 140]), (7830, [72, 204, 177]),
   (7831, [84, 204, 136]), (7832, [87, 204, 138]), (7833, [89, 204, 138]),
   (7834, [65, 202, 190]), (8016, [206, 165, 204, 147]), (8018, [206, 165, 204, 147, 204, 128]),
   (8020, [206, 165, 204, 147, 204, 129]), (8022, [206, 165, 204, 147, 205, 130]),
   (8118, [206, 145, 205, 130]), (8134, [206, 151, 205, 130]),
   (8146, [206, 153, 204, 136, 204, 128]), (8147, [206, 153, 204, 136, 204, 129]),
   (8150, [206, 153, 205, 130]), (8151, [206, 153, 204, 136, 205, 130]),
   (8162, [206, 165, 204, 136, 204, 128]), (8163, [206, 165, 204, 136, 204, 129]),
   (8164, [206, 161, 204, 147]), (8166, [206, 165, 205, 130]),
   (8167, [206, 165, 204, 136, 205, 130]), (8182, [206, 169, 205, 130]),
   (8064, [225, 188, 136, 206, 153]), (8065, [225, 188, 137, 206, 153]),
   (8066, [225, 188, 138, 206, 153]), (8067, [225, 188, 139, 206, 153]),
   (8068, [225, 188, 140, 206, 153]), (8069, [225, 188, 141, 206, 153]),
   (8070, [225, 188, 142, 206, 153]), (8071, [225, 188, 143, 206, 153]),
   (8072, [225, 188, 136, 206, 153]), (8073, [225, 188, 137, 206, 153]),
   (8074, [225, 188, 138, 206, 153]), (8075, [225, 188, 139, 206, 153]),
   (8076, [225, 188, 140, 206, 153]), (8077, [225, 188, 141, 206, 153]),
   (8078, [225, 188, 142, 206, 153]), (8079, [225, 188, 143, 206, 153]),
   (8080, [225, 188, 168, 206, 153]), (8081, [225, 188, 169, 206, 153]),
   (8082, [225, 188, 170, 206, 153]), (8083, [225, 188, 171, 206, 153]),
   (8084, [225, 188, 172, 206, 153]), (8085, [225, 188, 173, 206, 153]),
   (8086, [225, 188, 174, 206, 153]), (8087, [225, 188, 175, 206, 153]),
   (8088, [225, 188, 168, 206, 153]), (8089, [225, 188, 169, 206, 153]),
   (8090, [225, 188, 170, 206, 153]), (8091, [225, 188, 171, 206, 153]),
   (8092, [225, 188, 172, 206, 153]), (8093, [225, 188, 173, 206, 153]),
   (8094, [225, 188, 174, 206, 153]), (8095, [225, 188, 175, 206, 153]),
   (8096, [225, 189, 168, 206, 153]), (8097, [225, 189, 169, 206, 153]),
   (8098, [225, 189, 170, 206, 153]), (8099, [225, 189, 171, 206, 153]),
   (8100, [225, 189, 172, 206, 153]), (8101, [225, 189, 173, 206, 153]),
   (8102, [225, 189, 174, 206, 153]), (8103, [225, 189, 175, 206, 153]),
   (8104, [225, 189, 168, 206, 153]), (8105, [225, 189, 169, 206, 153]),
   (8106, [225, 189, 170, 206, 153]), (8107, [225, 189, 171, 206, 153]),
   (8108, [225, 189, 172, 206, 153]), (8109, [225, 189, 173, 206, 153]),
   (8110, [225, 189, 174, 206, 153]), (8111, [225, 189, 175, 206, 153]),
   (8115, [206, 145, 206, 153]), (8124, [206, 145, 206, 153]), (8131, [206, 151, 206, 153]),
   (8140, [206, 151, 206, 153]), (8179, [206, 169, 206, 153]), (8188, [206, 169, 206, 153]),
   (8114, [225, 190, 186, 206, 153]), (8116, [206, 134, 206, 153]),
   (8130, [225, 191, 138, 206, 153]), (8132, [206, 137, 206, 153]),
   (8178, [225, 191, 186, 206, 153]), (8180, [206, 143, 206, 153]),
   (8119, [206, 145, 205, 130, 206, 153]), (8135, [206, 151, 205, 130, 206, 153]),
   (8183, [206, 169, 205, 130, 206, 153])]

end Verif.Casing
