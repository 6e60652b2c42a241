import Verif.Locale.ParserChecks

/-!
# Items of the states of the generated parser

`grammar2` is the grammar without its ambiguities: an empty weight only occurs at the start of a list of weights
that goes on (symbols -74, the list, and -75, the weight), and quoted lists of collating symbols are element lists.
`itemsL` lists, for every state, productions of `grammar2`, positions in them, and sets of tokens (bit masks) that may
follow. These are witnesses for the proofs in `ParserComplete`, checked there.
-/

namespace Locale

/-- The unambiguous grammar: left hand side, right hand side, number of the production. -/
def grammar2 : List (Int × List Int × Nat) := [
  (-1, [-2, -3], 1),
  (-1, [-3], 2),
  (-2, [-2, -4], 3),
  (-2, [-4], 4),
  (-4, [17, 5, 16], 5),
  (-4, [18, 5, 16], 6),
  (-3, [-3, -5], 7),
  (-3, [-5], 8),
  (-5, [-6], 9),
  (-5, [-7], 10),
  (-5, [-8], 11),
  (-5, [-9], 12),
  (-5, [-10], 13),
  (-5, [-11], 14),
  (-12, [-12, -13], 15),
  (-12, [-13], 16),
  (-13, [5], 17),
  (-13, [9], 18),
  (-13, [10], 19),
  (-13, [11], 20),
  (-13, [12], 21),
  (-14, [-14, -13], 22),
  (-14, [-14, 7], 23),
  (-14, [-14, 8], 24),
  (-14, [-13], 25),
  (-14, [7], 26),
  (-14, [8], 27),
  (-16, [4], 30),
  (-16, [94, 4, 94], 31),
  (-6, [-17, -18, -19], 32),
  (-6, [-17, 19, -16, 16, -19], 33),
  (-17, [20, 16], 34),
  (-18, [-18, -20], 35),
  (-18, [-20], 36),
  (-20, [-21, -22, 16], 37),
  (-20, [-23, -24, 16], 38),
  (-20, [21, -25, 16], 39),
  (-25, [-25, 95, 13], 40),
  (-25, [13], 41),
  (-21, [22], 42),
  (-21, [23], 43),
  (-21, [24], 44),
  (-21, [25], 45),
  (-21, [26], 46),
  (-21, [27], 47),
  (-21, [28], 48),
  (-21, [29], 49),
  (-21, [30], 50),
  (-21, [31], 51),
  (-21, [32], 52),
  (-21, [33], 53),
  (-21, [13], 54),
  (-22, [-22, 95, -13], 55),
  (-22, [-22, 95, 14, 95, -13], 56),
  (-22, [-13], 57),
  (-23, [34], 58),
  (-23, [35], 59),
  (-24, [-24, 95, -26], 60),
  (-24, [-26], 61),
  (-26, [96, -13, 97, -13, 98], 62),
  (-19, [45, 20, 16], 63),
  (-7, [-27, -28, -29], 64),
  (-7, [-27, 19, -16, 16, -29], 65),
  (-27, [36, 16], 66),
  (-28, [-30], 67),
  (-28, [-31, -30], 68),
  (-31, [-31, -32], 69),
  (-31, [-31, -33], 70),
  (-31, [-32], 71),
  (-31, [-33], 72),
  (-32, [37, 7, 16], 73),
  (-33, [38, 8], 74),
  (-33, [88, 94, -14, 94, 16], 75),
  (-30, [-34, -35, -36], 76),
  (-34, [39, 16], 77),
  (-34, [39, -37, 16], 78),
  (-37, [-37, 95, -38], 79),
  (-37, [-38], 80),
  (-38, [-38, 97, -39], 81),
  (-38, [-39], 82),
  (-39, [40], 83),
  (-39, [41], 84),
  (-39, [42], 85),
  (-35, [-35, -40], 86),
  (-35, [-40], 87),
  (-40, [7, 16], 88),
  (-40, [-41, -42, 16], 89),
  (-40, [-41, 16], 90),
  (-41, [-13], 91),
  (-41, [8], 92),
  (-41, [14], 93),
  (-41, [43], 94),
  (-42, [-42, 95, -43], 95),
  (-42, [-74, 95, -43], 95),
  (-42, [-42, 95], 96),
  (-42, [-74, 95], 96),
  (-42, [-43], 97),
  (-74, [-75], 97),
  (-75, [], 98),
  (-43, [-13], 99),
  (-43, [7], 100),
  (-43, [94, -14, 94], 101),
  (-43, [14], 103),
  (-43, [44], 104),
  (-36, [89, 16], 105),
  (-29, [45, 36, 16], 106),
  (-8, [-44, -45, -46], 107),
  (-8, [-44, 19, -16, 16, -46], 108),
  (-44, [85, 16], 109),
  (-45, [-45, -47], 110),
  (-45, [-47], 111),
  (-47, [87, 94, 15, 94, 16], 112),
  (-47, [86, 94, 15, 94, 16], 113),
  (-46, [45, 85, 16], 114),
  (-9, [-48, -49, -50], 115),
  (-9, [-48, 19, -16, 16, -50], 116),
  (-48, [64, 16], 117),
  (-49, [-49, -51], 118),
  (-49, [-51], 119),
  (-51, [-52, -53, 16], 120),
  (-51, [-54, 6, 16], 121),
  (-51, [-54, 92, 16], 122),
  (-51, [-55, -56, 16], 123),
  (-52, [82], 124),
  (-52, [83], 125),
  (-52, [81], 126),
  (-52, [84], 127),
  (-52, [80], 128),
  (-52, [79], 129),
  (-53, [94, -12, 94], 130),
  (-53, [93], 131),
  (-54, [71], 132),
  (-54, [72], 133),
  (-54, [70], 134),
  (-54, [73], 135),
  (-54, [69], 136),
  (-54, [74], 137),
  (-54, [68], 138),
  (-54, [75], 139),
  (-54, [67], 140),
  (-54, [76], 141),
  (-54, [66], 142),
  (-54, [77], 143),
  (-54, [65], 144),
  (-54, [78], 145),
  (-55, [90], 146),
  (-56, [6], 147),
  (-56, [-56, 95, 6], 148),
  (-50, [45, 64, 16], 149),
  (-10, [-57, -58, -59], 150),
  (-10, [-57, 19, -16, 16, -59], 151),
  (-57, [61, 16], 152),
  (-58, [-58, -60], 153),
  (-58, [-60], 154),
  (-60, [-61, -62, 16], 155),
  (-60, [-63, -64, 16], 156),
  (-61, [62], 157),
  (-61, [63], 158),
  (-62, [94, -12, 94], 159),
  (-62, [93], 160),
  (-63, [91], 161),
  (-64, [6], 162),
  (-64, [-64, 95, 6], 163),
  (-59, [45, 61, 16], 164),
  (-11, [-65, -66, -67], 165),
  (-11, [-65, 19, -16, 16, -67], 166),
  (-65, [46, 16], 167),
  (-66, [-66, -68], 168),
  (-66, [-68], 169),
  (-68, [-69, -70, 16], 170),
  (-68, [-71, -72, 16], 171),
  (-68, [-73, -70, 16], 172),
  (-69, [52], 173),
  (-69, [57], 174),
  (-69, [58], 175),
  (-69, [59], 176),
  (-69, [60], 177),
  (-71, [53], 178),
  (-71, [54], 179),
  (-71, [55], 180),
  (-71, [56], 181),
  (-73, [47], 182),
  (-73, [48], 183),
  (-73, [49], 184),
  (-73, [51], 185),
  (-73, [50], 186),
  (-70, [-70, 95, -72], 187),
  (-70, [-72], 188),
  (-72, [94, -12, 94], 189),
  (-67, [45, 46, 16], 190)]

/-- Items. -/
def itemsL : List (List (Nat × Nat × Nat)) := [
  [(0, 0, 0x2), (1, 0, 0x2), (2, 0, 0x2000012000401000160000), (3, 0, 0x2000012000401000160000),
   (4, 0, 0x2000012000401000160000), (5, 0, 0x2000012000401000160000), (6, 0, 0x2000012000401000100002),
   (7, 0, 0x2000012000401000100002), (8, 0, 0x2000012000401000100002), (9, 0, 0x2000012000401000100002),
   (10, 0, 0x2000012000401000100002), (11, 0, 0x2000012000401000100002), (12, 0, 0x2000012000401000100002),
   (13, 0, 0x2000012000401000100002), (29, 0, 0x2000012000401000100002), (30, 0, 0x2000012000401000100002),
   (31, 0, 0xfffe82000), (61, 0, 0x2000012000401000100002), (62, 0, 0x2000012000401000100002),
   (63, 0, 0x1000000000000e000080000), (106, 0, 0x2000012000401000100002), (107, 0, 0x2000012000401000100002),
   (108, 0, 0xc000000000000000080000), (114, 0, 0x2000012000401000100002), (115, 0, 0x2000012000401000100002),
   (116, 0, 0x41ffffe0000000000080000), (149, 0, 0x2000012000401000100002), (150, 0, 0x2000012000401000100002),
   (151, 0, 0x8000000c000000000080000), (164, 0, 0x2000012000401000100002), (165, 0, 0x2000012000401000100002),
   (166, 0, 0x1fff800000080000)],
  [],
  [(0, 1, 0x2), (2, 1, 0x2000012000401000160000), (4, 0, 0x2000012000401000160000),
   (5, 0, 0x2000012000401000160000), (6, 0, 0x2000012000401000100002), (7, 0, 0x2000012000401000100002),
   (8, 0, 0x2000012000401000100002), (9, 0, 0x2000012000401000100002), (10, 0, 0x2000012000401000100002),
   (11, 0, 0x2000012000401000100002), (12, 0, 0x2000012000401000100002), (13, 0, 0x2000012000401000100002),
   (29, 0, 0x2000012000401000100002), (30, 0, 0x2000012000401000100002), (31, 0, 0xfffe82000),
   (61, 0, 0x2000012000401000100002), (62, 0, 0x2000012000401000100002), (63, 0, 0x1000000000000e000080000),
   (106, 0, 0x2000012000401000100002), (107, 0, 0x2000012000401000100002), (108, 0, 0xc000000000000000080000),
   (114, 0, 0x2000012000401000100002), (115, 0, 0x2000012000401000100002), (116, 0, 0x41ffffe0000000000080000),
   (149, 0, 0x2000012000401000100002), (150, 0, 0x2000012000401000100002), (151, 0, 0x8000000c000000000080000),
   (164, 0, 0x2000012000401000100002), (165, 0, 0x2000012000401000100002), (166, 0, 0x1fff800000080000)],
  [(1, 1, 0x2), (6, 1, 0x2000012000401000100002), (8, 0, 0x2000012000401000100002),
   (9, 0, 0x2000012000401000100002), (10, 0, 0x2000012000401000100002), (11, 0, 0x2000012000401000100002),
   (12, 0, 0x2000012000401000100002), (13, 0, 0x2000012000401000100002), (29, 0, 0x2000012000401000100002),
   (30, 0, 0x2000012000401000100002), (31, 0, 0xfffe82000), (61, 0, 0x2000012000401000100002),
   (62, 0, 0x2000012000401000100002), (63, 0, 0x1000000000000e000080000), (106, 0, 0x2000012000401000100002),
   (107, 0, 0x2000012000401000100002), (108, 0, 0xc000000000000000080000), (114, 0, 0x2000012000401000100002),
   (115, 0, 0x2000012000401000100002), (116, 0, 0x41ffffe0000000000080000), (149, 0, 0x2000012000401000100002),
   (150, 0, 0x2000012000401000100002), (151, 0, 0x8000000c000000000080000), (164, 0, 0x2000012000401000100002),
   (165, 0, 0x2000012000401000100002), (166, 0, 0x1fff800000080000)],
  [(3, 1, 0x2000012000401000160000)],
  [(7, 1, 0x2000012000401000100002)],
  [(4, 1, 0x2000012000401000160000)],
  [(5, 1, 0x2000012000401000160000)],
  [(8, 1, 0x2000012000401000100002)],
  [(9, 1, 0x2000012000401000100002)],
  [(10, 1, 0x2000012000401000100002)],
  [(11, 1, 0x2000012000401000100002)],
  [(12, 1, 0x2000012000401000100002)],
  [(13, 1, 0x2000012000401000100002)],
  [(29, 1, 0x2000012000401000100002), (30, 1, 0x2000012000401000100002), (32, 0, 0x200fffe02000),
   (33, 0, 0x200fffe02000), (34, 0, 0x200fffe02000), (35, 0, 0x200fffe02000), (36, 0, 0x200fffe02000),
   (39, 0, 0x1e20), (40, 0, 0x1e20), (41, 0, 0x1e20), (42, 0, 0x1e20), (43, 0, 0x1e20), (44, 0, 0x1e20),
   (45, 0, 0x1e20), (46, 0, 0x1e20), (47, 0, 0x1e20), (48, 0, 0x1e20), (49, 0, 0x1e20), (50, 0, 0x1e20),
   (51, 0, 0x1e20), (55, 0, 0x1000000000000000000000000), (56, 0, 0x1000000000000000000000000)],
  [(61, 1, 0x2000012000401000100002), (62, 1, 0x2000012000401000100002), (64, 0, 0x200000000000),
   (65, 0, 0x200000000000), (66, 0, 0x1000000000000e000000000), (67, 0, 0x1000000000000e000000000),
   (68, 0, 0x1000000000000e000000000), (69, 0, 0x1000000000000e000000000), (70, 0, 0x1000000000000e000000000),
   (71, 0, 0x1000000000000e000000000), (72, 0, 0x1000000000000e000000000), (73, 0, 0x200000000000),
   (74, 0, 0x80000005fa0), (75, 0, 0x80000005fa0)],
  [(106, 1, 0x2000012000401000100002), (107, 1, 0x2000012000401000100002), (109, 0, 0xc000000000200000000000),
   (110, 0, 0xc000000000200000000000), (111, 0, 0xc000000000200000000000), (112, 0, 0xc000000000200000000000)],
  [(114, 1, 0x2000012000401000100002), (115, 1, 0x2000012000401000100002), (117, 0, 0x41ffffe0000200000000000),
   (118, 0, 0x41ffffe0000200000000000), (119, 0, 0x41ffffe0000200000000000),
   (120, 0, 0x41ffffe0000200000000000), (121, 0, 0x41ffffe0000200000000000),
   (122, 0, 0x41ffffe0000200000000000), (123, 0, 0x600000000000000000000000),
   (124, 0, 0x600000000000000000000000), (125, 0, 0x600000000000000000000000),
   (126, 0, 0x600000000000000000000000), (127, 0, 0x600000000000000000000000),
   (128, 0, 0x600000000000000000000000), (131, 0, 0x100000000000000000000040),
   (132, 0, 0x100000000000000000000040), (133, 0, 0x100000000000000000000040),
   (134, 0, 0x100000000000000000000040), (135, 0, 0x100000000000000000000040),
   (136, 0, 0x100000000000000000000040), (137, 0, 0x100000000000000000000040),
   (138, 0, 0x100000000000000000000040), (139, 0, 0x100000000000000000000040),
   (140, 0, 0x100000000000000000000040), (141, 0, 0x100000000000000000000040),
   (142, 0, 0x100000000000000000000040), (143, 0, 0x100000000000000000000040),
   (144, 0, 0x100000000000000000000040), (145, 0, 0x40)],
  [(149, 1, 0x2000012000401000100002), (150, 1, 0x2000012000401000100002), (152, 0, 0x8000000c000200000000000),
   (153, 0, 0x8000000c000200000000000), (154, 0, 0x8000000c000200000000000),
   (155, 0, 0x8000000c000200000000000), (156, 0, 0x600000000000000000000000),
   (157, 0, 0x600000000000000000000000), (160, 0, 0x40)],
  [(164, 1, 0x2000012000401000100002), (165, 1, 0x2000012000401000100002), (167, 0, 0x1fffa00000000000),
   (168, 0, 0x1fffa00000000000), (169, 0, 0x1fffa00000000000), (170, 0, 0x1fffa00000000000),
   (171, 0, 0x1fffa00000000000), (172, 0, 0x400000000000000000000000), (173, 0, 0x400000000000000000000000),
   (174, 0, 0x400000000000000000000000), (175, 0, 0x400000000000000000000000),
   (176, 0, 0x400000000000000000000000), (177, 0, 0x400000000000000000000000),
   (178, 0, 0x400000000000000000000000), (179, 0, 0x400000000000000000000000),
   (180, 0, 0x400000000000000000000000), (181, 0, 0x400000000000000000000000),
   (182, 0, 0x400000000000000000000000), (183, 0, 0x400000000000000000000000),
   (184, 0, 0x400000000000000000000000), (185, 0, 0x400000000000000000000000)],
  [(31, 1, 0xfffe82000)],
  [(63, 1, 0x1000000000000e000080000)],
  [(108, 1, 0xc000000000000000080000)],
  [(116, 1, 0x41ffffe0000000000080000)],
  [(151, 1, 0x8000000c000000000080000)],
  [(166, 1, 0x1fff800000080000)],
  [(0, 2, 0x2), (6, 1, 0x2000012000401000100002), (8, 0, 0x2000012000401000100002),
   (9, 0, 0x2000012000401000100002), (10, 0, 0x2000012000401000100002), (11, 0, 0x2000012000401000100002),
   (12, 0, 0x2000012000401000100002), (13, 0, 0x2000012000401000100002), (29, 0, 0x2000012000401000100002),
   (30, 0, 0x2000012000401000100002), (31, 0, 0xfffe82000), (61, 0, 0x2000012000401000100002),
   (62, 0, 0x2000012000401000100002), (63, 0, 0x1000000000000e000080000), (106, 0, 0x2000012000401000100002),
   (107, 0, 0x2000012000401000100002), (108, 0, 0xc000000000000000080000), (114, 0, 0x2000012000401000100002),
   (115, 0, 0x2000012000401000100002), (116, 0, 0x41ffffe0000000000080000), (149, 0, 0x2000012000401000100002),
   (150, 0, 0x2000012000401000100002), (151, 0, 0x8000000c000000000080000), (164, 0, 0x2000012000401000100002),
   (165, 0, 0x2000012000401000100002), (166, 0, 0x1fff800000080000)],
  [(2, 2, 0x2000012000401000160000)],
  [(6, 2, 0x2000012000401000100002)],
  [(4, 2, 0x2000012000401000160000)],
  [(5, 2, 0x2000012000401000160000)],
  [(29, 2, 0x2000012000401000100002), (32, 1, 0x200fffe02000), (34, 0, 0x200fffe02000),
   (35, 0, 0x200fffe02000), (36, 0, 0x200fffe02000), (39, 0, 0x1e20), (40, 0, 0x1e20), (41, 0, 0x1e20),
   (42, 0, 0x1e20), (43, 0, 0x1e20), (44, 0, 0x1e20), (45, 0, 0x1e20), (46, 0, 0x1e20), (47, 0, 0x1e20),
   (48, 0, 0x1e20), (49, 0, 0x1e20), (50, 0, 0x1e20), (51, 0, 0x1e20), (55, 0, 0x1000000000000000000000000),
   (56, 0, 0x1000000000000000000000000), (60, 0, 0x2000012000401000100002)],
  [(27, 0, 0x10000), (28, 0, 0x10000), (30, 2, 0x2000012000401000100002)],
  [(33, 1, 0x200fffe02000)],
  [(16, 0, 0x800000000000000000010000), (17, 0, 0x800000000000000000010000),
   (18, 0, 0x800000000000000000010000), (19, 0, 0x800000000000000000010000),
   (20, 0, 0x800000000000000000010000), (34, 1, 0x200fffe02000), (52, 0, 0x800000000000000000010000),
   (53, 0, 0x800000000000000000010000), (54, 0, 0x800000000000000000010000)],
  [(35, 1, 0x200fffe02000), (57, 0, 0x800000000000000000010000), (58, 0, 0x800000000000000000010000),
   (59, 0, 0x800000000000000000010000)],
  [(36, 1, 0x200fffe02000), (37, 0, 0x800000000000000000010000), (38, 0, 0x800000000000000000010000)],
  [(39, 1, 0x1e20)],
  [(40, 1, 0x1e20)],
  [(41, 1, 0x1e20)],
  [(42, 1, 0x1e20)],
  [(43, 1, 0x1e20)],
  [(44, 1, 0x1e20)],
  [(45, 1, 0x1e20)],
  [(46, 1, 0x1e20)],
  [(47, 1, 0x1e20)],
  [(48, 1, 0x1e20)],
  [(49, 1, 0x1e20)],
  [(50, 1, 0x1e20)],
  [(51, 1, 0x1e20)],
  [(55, 1, 0x1000000000000000000000000)],
  [(56, 1, 0x1000000000000000000000000)],
  [(61, 2, 0x2000012000401000100002), (105, 0, 0x2000012000401000100002)],
  [(27, 0, 0x10000), (28, 0, 0x10000), (62, 2, 0x2000012000401000100002)],
  [(64, 1, 0x200000000000)],
  [(65, 1, 0x200000000000), (66, 1, 0x1000000000000e000000000), (67, 1, 0x1000000000000e000000000),
   (70, 0, 0x1000000000000e000000000), (71, 0, 0x1000000000000e000000000), (72, 0, 0x1000000000000e000000000),
   (73, 0, 0x200000000000), (74, 0, 0x80000005fa0), (75, 0, 0x80000005fa0)],
  [(16, 0, 0xc00000000000100000015ea0), (17, 0, 0xc00000000000100000015ea0),
   (18, 0, 0xc00000000000100000015ea0), (19, 0, 0xc00000000000100000015ea0),
   (20, 0, 0xc00000000000100000015ea0), (73, 1, 0x200000000000), (83, 0, 0x20000000000080000005fa0),
   (84, 0, 0x20000000000080000005fa0), (85, 0, 0x20000000000080000005fa0), (86, 0, 0x20000000000080000005fa0),
   (87, 0, 0x20000000000080000005fa0), (88, 0, 0xc00000000000100000015ea0),
   (89, 0, 0xc00000000000100000015ea0), (90, 0, 0xc00000000000100000015ea0), (91, 0, 0xc00000000000100000015ea0)],
  [(68, 1, 0x1000000000000e000000000)],
  [(69, 1, 0x1000000000000e000000000)],
  [(74, 1, 0x80000005fa0), (75, 1, 0x80000005fa0), (76, 0, 0x800000000000000000010000),
   (77, 0, 0x800000000000000000010000), (78, 0, 0x2800000000000000000010000),
   (79, 0, 0x2800000000000000000010000), (80, 0, 0x2800000000000000000010000),
   (81, 0, 0x2800000000000000000010000), (82, 0, 0x2800000000000000000010000)],
  [(70, 1, 0x1000000000000e000000000)],
  [(71, 1, 0x1000000000000e000000000)],
  [(72, 1, 0x1000000000000e000000000)],
  [(106, 2, 0x2000012000401000100002), (109, 1, 0xc000000000200000000000), (111, 0, 0xc000000000200000000000),
   (112, 0, 0xc000000000200000000000), (113, 0, 0x2000012000401000100002)],
  [(27, 0, 0x10000), (28, 0, 0x10000), (107, 2, 0x2000012000401000100002)],
  [(110, 1, 0xc000000000200000000000)],
  [(111, 1, 0xc000000000200000000000)],
  [(112, 1, 0xc000000000200000000000)],
  [(114, 2, 0x2000012000401000100002), (117, 1, 0x41ffffe0000200000000000),
   (119, 0, 0x41ffffe0000200000000000), (120, 0, 0x41ffffe0000200000000000),
   (121, 0, 0x41ffffe0000200000000000), (122, 0, 0x41ffffe0000200000000000),
   (123, 0, 0x600000000000000000000000), (124, 0, 0x600000000000000000000000),
   (125, 0, 0x600000000000000000000000), (126, 0, 0x600000000000000000000000),
   (127, 0, 0x600000000000000000000000), (128, 0, 0x600000000000000000000000),
   (131, 0, 0x100000000000000000000040), (132, 0, 0x100000000000000000000040),
   (133, 0, 0x100000000000000000000040), (134, 0, 0x100000000000000000000040),
   (135, 0, 0x100000000000000000000040), (136, 0, 0x100000000000000000000040),
   (137, 0, 0x100000000000000000000040), (138, 0, 0x100000000000000000000040),
   (139, 0, 0x100000000000000000000040), (140, 0, 0x100000000000000000000040),
   (141, 0, 0x100000000000000000000040), (142, 0, 0x100000000000000000000040),
   (143, 0, 0x100000000000000000000040), (144, 0, 0x100000000000000000000040), (145, 0, 0x40),
   (148, 0, 0x2000012000401000100002)],
  [(27, 0, 0x10000), (28, 0, 0x10000), (115, 2, 0x2000012000401000100002)],
  [(118, 1, 0x41ffffe0000200000000000)],
  [(119, 1, 0x41ffffe0000200000000000), (129, 0, 0x10000), (130, 0, 0x10000)],
  [(120, 1, 0x41ffffe0000200000000000), (121, 1, 0x41ffffe0000200000000000)],
  [(122, 1, 0x41ffffe0000200000000000), (146, 0, 0x800000000000000000010000),
   (147, 0, 0x800000000000000000010000)],
  [(123, 1, 0x600000000000000000000000)],
  [(124, 1, 0x600000000000000000000000)],
  [(125, 1, 0x600000000000000000000000)],
  [(126, 1, 0x600000000000000000000000)],
  [(127, 1, 0x600000000000000000000000)],
  [(128, 1, 0x600000000000000000000000)],
  [(131, 1, 0x100000000000000000000040)],
  [(132, 1, 0x100000000000000000000040)],
  [(133, 1, 0x100000000000000000000040)],
  [(134, 1, 0x100000000000000000000040)],
  [(135, 1, 0x100000000000000000000040)],
  [(136, 1, 0x100000000000000000000040)],
  [(137, 1, 0x100000000000000000000040)],
  [(138, 1, 0x100000000000000000000040)],
  [(139, 1, 0x100000000000000000000040)],
  [(140, 1, 0x100000000000000000000040)],
  [(141, 1, 0x100000000000000000000040)],
  [(142, 1, 0x100000000000000000000040)],
  [(143, 1, 0x100000000000000000000040)],
  [(144, 1, 0x100000000000000000000040)],
  [(145, 1, 0x40)],
  [(149, 2, 0x2000012000401000100002), (152, 1, 0x8000000c000200000000000),
   (154, 0, 0x8000000c000200000000000), (155, 0, 0x8000000c000200000000000),
   (156, 0, 0x600000000000000000000000), (157, 0, 0x600000000000000000000000), (160, 0, 0x40),
   (163, 0, 0x2000012000401000100002)],
  [(27, 0, 0x10000), (28, 0, 0x10000), (150, 2, 0x2000012000401000100002)],
  [(153, 1, 0x8000000c000200000000000)],
  [(154, 1, 0x8000000c000200000000000), (158, 0, 0x10000), (159, 0, 0x10000)],
  [(155, 1, 0x8000000c000200000000000), (161, 0, 0x800000000000000000010000),
   (162, 0, 0x800000000000000000010000)],
  [(156, 1, 0x600000000000000000000000)],
  [(157, 1, 0x600000000000000000000000)],
  [(160, 1, 0x40)],
  [(164, 2, 0x2000012000401000100002), (167, 1, 0x1fffa00000000000), (169, 0, 0x1fffa00000000000),
   (170, 0, 0x1fffa00000000000), (171, 0, 0x1fffa00000000000), (172, 0, 0x400000000000000000000000),
   (173, 0, 0x400000000000000000000000), (174, 0, 0x400000000000000000000000),
   (175, 0, 0x400000000000000000000000), (176, 0, 0x400000000000000000000000),
   (177, 0, 0x400000000000000000000000), (178, 0, 0x400000000000000000000000),
   (179, 0, 0x400000000000000000000000), (180, 0, 0x400000000000000000000000),
   (181, 0, 0x400000000000000000000000), (182, 0, 0x400000000000000000000000),
   (183, 0, 0x400000000000000000000000), (184, 0, 0x400000000000000000000000),
   (185, 0, 0x400000000000000000000000), (189, 0, 0x2000012000401000100002)],
  [(27, 0, 0x10000), (28, 0, 0x10000), (165, 2, 0x2000012000401000100002)],
  [(168, 1, 0x1fffa00000000000)],
  [(169, 1, 0x1fffa00000000000), (186, 0, 0x800000000000000000010000), (187, 0, 0x800000000000000000010000),
   (188, 0, 0x800000000000000000010000)],
  [(170, 1, 0x1fffa00000000000), (188, 0, 0x10000)],
  [(171, 1, 0x1fffa00000000000), (186, 0, 0x800000000000000000010000), (187, 0, 0x800000000000000000010000),
   (188, 0, 0x800000000000000000010000)],
  [(172, 1, 0x400000000000000000000000)],
  [(173, 1, 0x400000000000000000000000)],
  [(174, 1, 0x400000000000000000000000)],
  [(175, 1, 0x400000000000000000000000)],
  [(176, 1, 0x400000000000000000000000)],
  [(177, 1, 0x400000000000000000000000)],
  [(178, 1, 0x400000000000000000000000)],
  [(179, 1, 0x400000000000000000000000)],
  [(180, 1, 0x400000000000000000000000)],
  [(181, 1, 0x400000000000000000000000)],
  [(182, 1, 0x400000000000000000000000)],
  [(183, 1, 0x400000000000000000000000)],
  [(184, 1, 0x400000000000000000000000)],
  [(185, 1, 0x400000000000000000000000)],
  [(31, 2, 0xfffe82000)],
  [(63, 2, 0x1000000000000e000080000)],
  [(108, 2, 0xc000000000000000080000)],
  [(116, 2, 0x41ffffe0000000000080000)],
  [(151, 2, 0x8000000c000000000080000)],
  [(166, 2, 0x1fff800000080000)],
  [(4, 3, 0x2000012000401000160000)],
  [(5, 3, 0x2000012000401000160000)],
  [(29, 3, 0x2000012000401000100002)],
  [(32, 2, 0x200fffe02000)],
  [(60, 1, 0x2000012000401000100002)],
  [(30, 3, 0x2000012000401000100002)],
  [(27, 1, 0x10000)],
  [(28, 1, 0x10000)],
  [(34, 2, 0x200fffe02000), (52, 1, 0x800000000000000000010000), (53, 1, 0x800000000000000000010000)],
  [(54, 1, 0x800000000000000000010000)],
  [(16, 1, 0x6c00000000000100000015fa0)],
  [(17, 1, 0x6c00000000000100000015fa0)],
  [(18, 1, 0x6c00000000000100000015fa0)],
  [(19, 1, 0x6c00000000000100000015fa0)],
  [(20, 1, 0x6c00000000000100000015fa0)],
  [(35, 2, 0x200fffe02000), (57, 1, 0x800000000000000000010000)],
  [(58, 1, 0x800000000000000000010000)],
  [(16, 0, 0x2000000000000000000000000), (17, 0, 0x2000000000000000000000000),
   (18, 0, 0x2000000000000000000000000), (19, 0, 0x2000000000000000000000000),
   (20, 0, 0x2000000000000000000000000), (59, 1, 0x800000000000000000010000)],
  [(36, 2, 0x200fffe02000), (37, 1, 0x800000000000000000010000)],
  [(38, 1, 0x800000000000000000010000)],
  [(61, 3, 0x2000012000401000100002)],
  [(105, 1, 0x2000012000401000100002)],
  [(62, 3, 0x2000012000401000100002)],
  [(65, 2, 0x200000000000)],
  [(66, 2, 0x1000000000000e000000000)],
  [(67, 2, 0x1000000000000e000000000)],
  [(16, 0, 0xc00000000000100000015ea0), (17, 0, 0xc00000000000100000015ea0),
   (18, 0, 0xc00000000000100000015ea0), (19, 0, 0xc00000000000100000015ea0),
   (20, 0, 0xc00000000000100000015ea0), (73, 2, 0x200000000000), (83, 1, 0x20000000000080000005fa0),
   (85, 0, 0x20000000000080000005fa0), (86, 0, 0x20000000000080000005fa0), (87, 0, 0x20000000000080000005fa0),
   (88, 0, 0xc00000000000100000015ea0), (89, 0, 0xc00000000000100000015ea0),
   (90, 0, 0xc00000000000100000015ea0), (91, 0, 0xc00000000000100000015ea0), (104, 0, 0x200000000000)],
  [(84, 1, 0x20000000000080000005fa0)],
  [(85, 1, 0x20000000000080000005fa0)],
  [(16, 0, 0x800000000000000000010000), (17, 0, 0x800000000000000000010000),
   (18, 0, 0x800000000000000000010000), (19, 0, 0x800000000000000000010000),
   (20, 0, 0x800000000000000000010000), (86, 1, 0x20000000000080000005fa0), (87, 1, 0x20000000000080000005fa0),
   (92, 0, 0x800000000000000000010000), (93, 0, 0x800000000000000000010000),
   (94, 0, 0x800000000000000000010000), (95, 0, 0x800000000000000000010000),
   (96, 0, 0x800000000000000000010000), (97, 0, 0x800000000000000000000000),
   (98, 0, 0x800000000000000000000000), (99, 0, 0x800000000000000000010000),
   (100, 0, 0x800000000000000000010000), (101, 0, 0x800000000000000000010000),
   (102, 0, 0x800000000000000000010000), (103, 0, 0x800000000000000000010000)],
  [(88, 1, 0xc00000000000100000015ea0)],
  [(89, 1, 0xc00000000000100000015ea0)],
  [(90, 1, 0xc00000000000100000015ea0)],
  [(91, 1, 0xc00000000000100000015ea0)],
  [(74, 2, 0x80000005fa0)],
  [(75, 2, 0x80000005fa0), (76, 1, 0x800000000000000000010000)],
  [(77, 1, 0x800000000000000000010000), (78, 1, 0x2800000000000000000010000)],
  [(79, 1, 0x2800000000000000000010000)],
  [(80, 1, 0x2800000000000000000010000)],
  [(81, 1, 0x2800000000000000000010000)],
  [(82, 1, 0x2800000000000000000010000)],
  [(70, 2, 0x1000000000000e000000000)],
  [(71, 2, 0x1000000000000e000000000)],
  [(16, 0, 0x400000000000000000001fa0), (17, 0, 0x400000000000000000001fa0),
   (18, 0, 0x400000000000000000001fa0), (19, 0, 0x400000000000000000001fa0),
   (20, 0, 0x400000000000000000001fa0), (21, 0, 0x400000000000000000001fa0),
   (22, 0, 0x400000000000000000001fa0), (23, 0, 0x400000000000000000001fa0),
   (24, 0, 0x400000000000000000001fa0), (25, 0, 0x400000000000000000001fa0),
   (26, 0, 0x400000000000000000001fa0), (72, 2, 0x1000000000000e000000000)],
  [(106, 3, 0x2000012000401000100002)],
  [(109, 2, 0xc000000000200000000000)],
  [(113, 1, 0x2000012000401000100002)],
  [(107, 3, 0x2000012000401000100002)],
  [(111, 2, 0xc000000000200000000000)],
  [(112, 2, 0xc000000000200000000000)],
  [(114, 3, 0x2000012000401000100002)],
  [(117, 2, 0x41ffffe0000200000000000)],
  [(148, 1, 0x2000012000401000100002)],
  [(115, 3, 0x2000012000401000100002)],
  [(119, 2, 0x41ffffe0000200000000000)],
  [(14, 0, 0x400000000000000000001e20), (15, 0, 0x400000000000000000001e20),
   (16, 0, 0x400000000000000000001e20), (17, 0, 0x400000000000000000001e20),
   (18, 0, 0x400000000000000000001e20), (19, 0, 0x400000000000000000001e20),
   (20, 0, 0x400000000000000000001e20), (129, 1, 0x10000)],
  [(130, 1, 0x10000)],
  [(120, 2, 0x41ffffe0000200000000000)],
  [(121, 2, 0x41ffffe0000200000000000)],
  [(122, 2, 0x41ffffe0000200000000000), (147, 1, 0x800000000000000000010000)],
  [(146, 1, 0x800000000000000000010000)],
  [(149, 3, 0x2000012000401000100002)],
  [(152, 2, 0x8000000c000200000000000)],
  [(163, 1, 0x2000012000401000100002)],
  [(150, 3, 0x2000012000401000100002)],
  [(154, 2, 0x8000000c000200000000000)],
  [(14, 0, 0x400000000000000000001e20), (15, 0, 0x400000000000000000001e20),
   (16, 0, 0x400000000000000000001e20), (17, 0, 0x400000000000000000001e20),
   (18, 0, 0x400000000000000000001e20), (19, 0, 0x400000000000000000001e20),
   (20, 0, 0x400000000000000000001e20), (158, 1, 0x10000)],
  [(159, 1, 0x10000)],
  [(155, 2, 0x8000000c000200000000000), (162, 1, 0x800000000000000000010000)],
  [(161, 1, 0x800000000000000000010000)],
  [(164, 3, 0x2000012000401000100002)],
  [(167, 2, 0x1fffa00000000000)],
  [(189, 1, 0x2000012000401000100002)],
  [(165, 3, 0x2000012000401000100002)],
  [(169, 2, 0x1fffa00000000000), (186, 1, 0x800000000000000000010000)],
  [(187, 1, 0x800000000000000000010000)],
  [(14, 0, 0x400000000000000000001e20), (15, 0, 0x400000000000000000001e20),
   (16, 0, 0x400000000000000000001e20), (17, 0, 0x400000000000000000001e20),
   (18, 0, 0x400000000000000000001e20), (19, 0, 0x400000000000000000001e20),
   (20, 0, 0x400000000000000000001e20), (188, 1, 0x800000000000000000010000)],
  [(170, 2, 0x1fffa00000000000)],
  [(171, 2, 0x1fffa00000000000), (186, 1, 0x800000000000000000010000)],
  [(60, 2, 0x2000012000401000100002)],
  [(30, 4, 0x2000012000401000100002), (60, 0, 0x2000012000401000100002)],
  [(28, 2, 0x10000)],
  [(34, 3, 0x200fffe02000)],
  [(16, 0, 0x800000000000000000010000), (17, 0, 0x800000000000000000010000),
   (18, 0, 0x800000000000000000010000), (19, 0, 0x800000000000000000010000),
   (20, 0, 0x800000000000000000010000), (52, 2, 0x800000000000000000010000), (53, 2, 0x800000000000000000010000)],
  [(35, 3, 0x200fffe02000)],
  [(57, 2, 0x800000000000000000010000), (59, 0, 0x800000000000000000010000)],
  [(59, 2, 0x800000000000000000010000)],
  [(36, 3, 0x200fffe02000)],
  [(37, 2, 0x800000000000000000010000)],
  [(105, 2, 0x2000012000401000100002)],
  [(62, 4, 0x2000012000401000100002), (105, 0, 0x2000012000401000100002)],
  [(73, 3, 0x200000000000)],
  [(83, 2, 0x20000000000080000005fa0)],
  [(104, 1, 0x200000000000)],
  [(85, 2, 0x20000000000080000005fa0)],
  [(86, 2, 0x20000000000080000005fa0), (92, 1, 0x800000000000000000010000),
   (93, 1, 0x800000000000000000010000), (94, 1, 0x800000000000000000010000), (95, 1, 0x800000000000000000010000)],
  [(87, 2, 0x20000000000080000005fa0)],
  [(96, 1, 0x800000000000000000010000), (97, 1, 0x800000000000000000000000)],
  [(99, 1, 0x800000000000000000010000)],
  [(100, 1, 0x800000000000000000010000)],
  [(16, 0, 0x400000000000000000001fa0), (17, 0, 0x400000000000000000001fa0),
   (18, 0, 0x400000000000000000001fa0), (19, 0, 0x400000000000000000001fa0),
   (20, 0, 0x400000000000000000001fa0), (21, 0, 0x400000000000000000001fa0),
   (22, 0, 0x400000000000000000001fa0), (23, 0, 0x400000000000000000001fa0),
   (24, 0, 0x400000000000000000001fa0), (25, 0, 0x400000000000000000001fa0),
   (26, 0, 0x400000000000000000001fa0), (101, 1, 0x800000000000000000010000)],
  [(102, 1, 0x800000000000000000010000)],
  [(103, 1, 0x800000000000000000010000)],
  [(75, 3, 0x80000005fa0)],
  [(76, 2, 0x800000000000000000010000), (78, 0, 0x2800000000000000000010000),
   (79, 0, 0x2800000000000000000010000), (80, 0, 0x2800000000000000000010000),
   (81, 0, 0x2800000000000000000010000), (82, 0, 0x2800000000000000000010000)],
  [(78, 2, 0x2800000000000000000010000), (80, 0, 0x2800000000000000000010000),
   (81, 0, 0x2800000000000000000010000), (82, 0, 0x2800000000000000000010000)],
  [(70, 3, 0x1000000000000e000000000)],
  [(16, 0, 0x400000000000000000001fa0), (17, 0, 0x400000000000000000001fa0),
   (18, 0, 0x400000000000000000001fa0), (19, 0, 0x400000000000000000001fa0),
   (20, 0, 0x400000000000000000001fa0), (21, 1, 0x400000000000000000001fa0),
   (22, 1, 0x400000000000000000001fa0), (23, 1, 0x400000000000000000001fa0), (72, 3, 0x1000000000000e000000000)],
  [(24, 1, 0x400000000000000000001fa0)],
  [(25, 1, 0x400000000000000000001fa0)],
  [(26, 1, 0x400000000000000000001fa0)],
  [(113, 2, 0x2000012000401000100002)],
  [(107, 4, 0x2000012000401000100002), (113, 0, 0x2000012000401000100002)],
  [(111, 3, 0xc000000000200000000000)],
  [(112, 3, 0xc000000000200000000000)],
  [(148, 2, 0x2000012000401000100002)],
  [(115, 4, 0x2000012000401000100002), (148, 0, 0x2000012000401000100002)],
  [(119, 3, 0x41ffffe0000200000000000)],
  [(14, 1, 0x400000000000000000001e20), (16, 0, 0x400000000000000000001e20),
   (17, 0, 0x400000000000000000001e20), (18, 0, 0x400000000000000000001e20),
   (19, 0, 0x400000000000000000001e20), (20, 0, 0x400000000000000000001e20), (129, 2, 0x10000)],
  [(15, 1, 0x400000000000000000001e20)],
  [(120, 3, 0x41ffffe0000200000000000)],
  [(121, 3, 0x41ffffe0000200000000000)],
  [(122, 3, 0x41ffffe0000200000000000)],
  [(147, 2, 0x800000000000000000010000)],
  [(163, 2, 0x2000012000401000100002)],
  [(150, 4, 0x2000012000401000100002), (163, 0, 0x2000012000401000100002)],
  [(154, 3, 0x8000000c000200000000000)],
  [(14, 1, 0x400000000000000000001e20), (16, 0, 0x400000000000000000001e20),
   (17, 0, 0x400000000000000000001e20), (18, 0, 0x400000000000000000001e20),
   (19, 0, 0x400000000000000000001e20), (20, 0, 0x400000000000000000001e20), (158, 2, 0x10000)],
  [(155, 3, 0x8000000c000200000000000)],
  [(162, 2, 0x800000000000000000010000)],
  [(189, 2, 0x2000012000401000100002)],
  [(165, 4, 0x2000012000401000100002), (189, 0, 0x2000012000401000100002)],
  [(169, 3, 0x1fffa00000000000)],
  [(186, 2, 0x800000000000000000010000), (188, 0, 0x800000000000000000010000)],
  [(14, 1, 0x400000000000000000001e20), (16, 0, 0x400000000000000000001e20),
   (17, 0, 0x400000000000000000001e20), (18, 0, 0x400000000000000000001e20),
   (19, 0, 0x400000000000000000001e20), (20, 0, 0x400000000000000000001e20),
   (188, 2, 0x800000000000000000010000)],
  [(170, 3, 0x1fffa00000000000)],
  [(171, 3, 0x1fffa00000000000)],
  [(60, 3, 0x2000012000401000100002)],
  [(30, 5, 0x2000012000401000100002)],
  [(28, 3, 0x10000)],
  [(52, 3, 0x800000000000000000010000)],
  [(53, 3, 0x800000000000000000010000)],
  [(57, 3, 0x800000000000000000010000)],
  [(16, 0, 0x4000000000000000000000000), (17, 0, 0x4000000000000000000000000),
   (18, 0, 0x4000000000000000000000000), (19, 0, 0x4000000000000000000000000),
   (20, 0, 0x4000000000000000000000000), (59, 3, 0x800000000000000000010000)],
  [(37, 3, 0x800000000000000000010000)],
  [(105, 3, 0x2000012000401000100002)],
  [(62, 5, 0x2000012000401000100002)],
  [(104, 2, 0x200000000000)],
  [(86, 3, 0x20000000000080000005fa0)],
  [(16, 0, 0x800000000000000000010000), (17, 0, 0x800000000000000000010000),
   (18, 0, 0x800000000000000000010000), (19, 0, 0x800000000000000000010000),
   (20, 0, 0x800000000000000000010000), (92, 2, 0x800000000000000000010000),
   (93, 2, 0x800000000000000000010000), (94, 2, 0x800000000000000000010000),
   (95, 2, 0x800000000000000000010000), (99, 0, 0x800000000000000000010000),
   (100, 0, 0x800000000000000000010000), (101, 0, 0x800000000000000000010000),
   (102, 0, 0x800000000000000000010000), (103, 0, 0x800000000000000000010000)],
  [(16, 0, 0x400000000000000000001fa0), (17, 0, 0x400000000000000000001fa0),
   (18, 0, 0x400000000000000000001fa0), (19, 0, 0x400000000000000000001fa0),
   (20, 0, 0x400000000000000000001fa0), (21, 1, 0x400000000000000000001fa0),
   (22, 1, 0x400000000000000000001fa0), (23, 1, 0x400000000000000000001fa0),
   (101, 2, 0x800000000000000000010000)],
  [],
  [(25, 1, 0x400000000000000000001fa0)],
  [(76, 3, 0x800000000000000000010000), (78, 1, 0x2800000000000000000010000)],
  [(78, 3, 0x2800000000000000000010000)],
  [(21, 2, 0x400000000000000000001fa0)],
  [(22, 2, 0x400000000000000000001fa0)],
  [(23, 2, 0x400000000000000000001fa0)],
  [(72, 4, 0x1000000000000e000000000)],
  [(113, 3, 0x2000012000401000100002)],
  [(107, 5, 0x2000012000401000100002)],
  [(111, 4, 0xc000000000200000000000)],
  [(112, 4, 0xc000000000200000000000)],
  [(148, 3, 0x2000012000401000100002)],
  [(115, 5, 0x2000012000401000100002)],
  [(14, 2, 0x400000000000000000001e20)],
  [(129, 3, 0x10000)],
  [(147, 3, 0x800000000000000000010000)],
  [(163, 3, 0x2000012000401000100002)],
  [(150, 5, 0x2000012000401000100002)],
  [(158, 3, 0x10000)],
  [(162, 3, 0x800000000000000000010000)],
  [(189, 3, 0x2000012000401000100002)],
  [(165, 5, 0x2000012000401000100002)],
  [(186, 3, 0x800000000000000000010000)],
  [(188, 3, 0x800000000000000000010000)],
  [(16, 0, 0x800000000000000000010000), (17, 0, 0x800000000000000000010000),
   (18, 0, 0x800000000000000000010000), (19, 0, 0x800000000000000000010000),
   (20, 0, 0x800000000000000000010000), (53, 4, 0x800000000000000000010000)],
  [(59, 4, 0x800000000000000000010000)],
  [(92, 3, 0x800000000000000000010000), (93, 3, 0x800000000000000000010000)],
  [(101, 3, 0x800000000000000000010000)],
  [],
  [],
  [(72, 5, 0x1000000000000e000000000)],
  [(111, 5, 0xc000000000200000000000)],
  [(112, 5, 0xc000000000200000000000)],
  [(53, 5, 0x800000000000000000010000)],
  [(59, 5, 0x800000000000000000010000)]]

/-- The tokens a nonterminal of `grammar2` can start with; entry `i` is for symbol `-i`. -/
def firstL : List Nat := [
  0x0,
  0x2000012000401000160000,
  0x60000,
  0x2000012000401000100000,
  0x60000,
  0x2000012000401000100000,
  0x100000,
  0x1000000000,
  0x2000000000000000000000,
  0x10000000000000000,
  0x2000000000000000,
  0x400000000000,
  0x1e20,
  0x1e20,
  0x1fa0,
  0x0,
  0x400000000000000000000010,
  0x100000,
  0xfffe02000,
  0x200000000000,
  0xfffe02000,
  0x3ffc02000,
  0x1e20,
  0xc00000000,
  0x1000000000000000000000000,
  0x2000,
  0x1000000000000000000000000,
  0x1000000000,
  0x1000000000000e000000000,
  0x200000000000,
  0x8000000000,
  0x10000000000006000000000,
  0x2000000000,
  0x10000000000004000000000,
  0x8000000000,
  0x80000005fa0,
  0x20000000000000000000000,
  0x70000000000,
  0x70000000000,
  0x70000000000,
  0x80000005fa0,
  0x80000005f20,
  0xc00000000000100000005ea0,
  0x400000000000100000005ea0,
  0x2000000000000000000000,
  0xc000000000000000000000,
  0x200000000000,
  0xc000000000000000000000,
  0x10000000000000000,
  0x41ffffe0000000000000000,
  0x200000000000,
  0x41ffffe0000000000000000,
  0x1f80000000000000000000,
  0x600000000000000000000000,
  0x7ffe0000000000000000,
  0x40000000000000000000000,
  0x40,
  0x2000000000000000,
  0x8000000c000000000000000,
  0x200000000000,
  0x8000000c000000000000000,
  0xc000000000000000,
  0x600000000000000000000000,
  0x80000000000000000000000,
  0x40,
  0x400000000000,
  0x1fff800000000000,
  0x200000000000,
  0x1fff800000000000,
  0x1e10000000000000,
  0x400000000000000000000000,
  0x1e0000000000000,
  0x400000000000000000000000,
  0xf800000000000,
  0x0,
  0x0]

end Locale
