/-!
# pkg/locale/y.go: the tables of the generated parser

Copied from the source text; see `gen.py` in `/verif/tools/locale`.
-/

namespace Locale

/-- y.go:258-262. -/
@[irreducible] def yyExca : List Int :=
  [-1, 1, 1, -1, -2, 0]

/-- y.go:268-317. -/
@[irreducible] def yyAct : List Int :=
  [248, 199, 226, 204, 190, 179, 166, 173, 165, 236, 145, 149, 131, 247, 156, 203, 181, 69, 105, 139, 315, 228, 234, 140,
   141, 142, 143, 272, 230, 134, 225, 146, 97, 309, 305, 138, 92, 90, 88, 86, 84, 82, 80, 81, 83, 85, 87, 89,
   91, 93, 79, 78, 76, 74, 75, 77, 135, 159, 231, 196, 195, 94, 205, 92, 90, 88, 86, 84, 82, 80, 81, 83,
   85, 87, 89, 91, 93, 79, 78, 76, 74, 75, 77, 151, 185, 184, 277, 265, 94, 261, 257, 139, 244, 228, 176, 140,
   141, 142, 143, 182, 230, 291, 290, 268, 178, 177, 172, 186, 229, 240, 139, 206, 285, 286, 140, 141, 142, 143, 251, 232,
   310, 253, 200, 216, 207, 213, 193, 211, 191, 259, 231, 65, 70, 201, 202, 139, 192, 285, 286, 140, 141, 142, 143, 181,
   139, 175, 136, 215, 140, 141, 142, 143, 60, 61, 59, 150, 159, 139, 58, 227, 64, 140, 141, 142, 143, 278, 262, 57,
   262, 258, 221, 139, 192, 237, 175, 140, 141, 142, 143, 139, 229, 157, 160, 140, 141, 142, 143, 133, 161, 100, 101, 54,
   53, 187, 218, 174, 208, 252, 233, 308, 96, 180, 217, 62, 214, 313, 212, 312, 33, 256, 60, 61, 59, 269, 154, 67,
   66, 162, 102, 263, 311, 301, 267, 153, 287, 271, 297, 67, 66, 292, 237, 275, 288, 304, 167, 168, 169, 284, 276, 279,
   132, 283, 282, 100, 101, 163, 299, 152, 294, 289, 5, 293, 20, 274, 28, 6, 7, 294, 20, 298, 295, 62, 302, 222,
   294, 266, 303, 264, 21, 167, 168, 169, 102, 306, 21, 260, 255, 28, 25, 227, 284, 307, 254, 139, 25, 157, 160, 140,
   141, 142, 143, 250, 161, 24, 171, 249, 23, 246, 245, 24, 241, 235, 23, 223, 219, 209, 314, 139, 130, 129, 104, 140,
   141, 142, 143, 128, 270, 22, 273, 127, 126, 162, 201, 22, 118, 119, 120, 122, 121, 109, 114, 115, 116, 117, 110, 111,
   112, 113, 118, 119, 120, 122, 121, 109, 114, 115, 116, 117, 110, 111, 112, 113, 49, 125, 124, 170, 123, 243, 242, 148,
   36, 37, 38, 39, 40, 41, 42, 43, 44, 45, 46, 47, 48, 50, 51, 139, 30, 49, 300, 140, 141, 142, 143, 32,
   133, 36, 37, 38, 39, 40, 41, 42, 43, 44, 45, 46, 47, 48, 50, 51, 139, 29, 281, 239, 140, 141, 142, 143,
   139, 210, 238, 239, 140, 141, 142, 143, 296, 198, 189, 4, 3, 108, 27, 26, 107, 106, 103, 19, 197, 99, 194, 98,
   95, 18, 188, 73, 72, 183, 71, 68, 17, 63, 16, 224, 158, 164, 220, 155, 56, 55, 52, 15, 147, 144, 35, 137,
   34, 31, 14, 280, 13, 12, 11, 10, 9, 8, 2, 1]

/-- y.go:318-352. -/
@[irreducible] def yyPact : List Int :=
  [238, -1000, 238, 232, -1000, -1000, 396, 371, -1000, -1000, -1000, -1000, -1000, -1000, 364, 173, 141, -2, 181, 291, 340, 338, 337, 304,
   303, 299, 232, -1000, -1000, 293, 292, 339, 52, -1000, 370, -65, 346, -1000, -1000, -1000, -1000, -1000, -1000, -1000, -1000, -1000, -1000, -1000,
   -1000, -1000, -1000, -1000, 110, 52, -1000, 115, 278, -1000, -1000, 229, 348, 286, 12, 129, 52, -1000, 11, 10, -29, 52, -1000, -9,
   101, 412, -1000, -1000, -1000, -1000, -1000, -1000, -1000, -1000, -1000, -1000, -1000, -1000, -1000, -1000, -1000, -1000, -1000, -1000, -1000, -1000, -1000, 127,
   52, -1000, -34, 411, -1000, -1000, -1000, 277, 52, -1000, -32, -32, -32, -1000, -1000, -1000, -1000, -1000, -1000, -1000, -1000, -1000, -1000, -1000,
   -1000, -1000, -1000, -1000, -1000, -1000, -1000, -1000, -1000, -1000, -1000, -1000, -1000, 176, 289, -1000, 405, 111, -1000, -1000, -1000, -1000, -1000, -1000,
   109, -1000, 370, 107, -1000, -1000, 158, 288, -1000, -1000, -1000, 174, -1000, 287, 14, -1000, -1000, -1000, -1000, -1000, 103, -75, -1000, -1000,
   -1000, -1000, 285, -1000, 403, -1000, -1000, 24, 284, 343, 342, -1000, -1000, 28, 282, 281, 370, -1000, 279, 275, 102, -1000, -1000, -1000,
   60, 266, 260, 370, -1000, 74, -1000, -1000, -1000, 83, 259, 73, -1000, 370, 251, 71, 249, 142, 9, -1000, 302, -1000, -65, -70,
   -1000, 305, 237, 110, -1000, -1000, 222, -1000, 70, -1000, -1000, -1000, -1000, 395, -1000, -1000, -1000, 194, 194, -1000, 130, -1000, -1000, -1000,
   216, 100, 8, 7, 213, 98, -1000, 166, -1000, -1000, -1000, -1000, 410, 210, 91, -1000, 152, -1000, 372, 205, 88, -1000, -32, 139,
   -1000, -1000, -1000, -1000, -1000, -1000, -61, -1000, 370, -1000, -1000, -1000, -1000, -1000, 86, 105, 26, -1000, -75, -1000, -1000, -1000, -1000, 204,
   -1000, -1000, 191, 189, -1000, -1000, -1000, -1000, -1000, -1000, -1000, -1000, -1000, -1000, -1000, -1000, -1000, 370, -78, -1000, -1000, -1000, -1000, -1000,
   -1000, -1000, -1000, -1000]

/-- y.go:353-363. -/
@[irreducible] def yyPgo : List Int :=
  [0, 467, 466, 420, 419, 250, 465, 464, 463, 462, 461, 460, 13, 0, 9, 459, 29, 458, 457, 12, 208, 456, 455, 454,
   453, 452, 10, 451, 450, 11, 191, 449, 167, 158, 448, 447, 446, 445, 8, 6, 14, 444, 443, 2, 442, 441, 7, 131,
   440, 439, 5, 132, 438, 437, 436, 435, 434, 433, 432, 4, 32, 431, 430, 429, 428, 427, 426, 1, 18, 425, 15, 424,
   3, 421]

/-- y.go:364-386. -/
@[irreducible] def yyR1 : List Int :=
  [0, 1, 1, 2, 2, 4, 4, 3, 3, 5, 5, 5, 5, 5, 5, 12, 12, 13, 13, 13, 13, 13, 14, 14,
   14, 14, 14, 14, 15, 15, 16, 16, 6, 6, 17, 18, 18, 20, 20, 20, 25, 25, 21, 21, 21, 21, 21, 21,
   21, 21, 21, 21, 21, 21, 21, 22, 22, 22, 23, 23, 24, 24, 26, 19, 7, 7, 27, 28, 28, 31, 31, 31,
   31, 32, 33, 33, 30, 34, 34, 37, 37, 38, 38, 39, 39, 39, 35, 35, 40, 40, 40, 41, 41, 41, 41, 42,
   42, 42, 43, 43, 43, 43, 43, 43, 43, 36, 29, 8, 8, 44, 45, 45, 47, 47, 46, 9, 9, 48, 49, 49,
   51, 51, 51, 51, 52, 52, 52, 52, 52, 52, 53, 53, 54, 54, 54, 54, 54, 54, 54, 54, 54, 54, 54, 54,
   54, 54, 55, 56, 56, 50, 10, 10, 57, 58, 58, 60, 60, 61, 61, 62, 62, 63, 64, 64, 59, 11, 11, 65,
   66, 66, 68, 68, 68, 69, 69, 69, 69, 69, 71, 71, 71, 71, 73, 73, 73, 73, 73, 70, 70, 72, 67]

/-- y.go:387-409. -/
@[irreducible] def yyR2 : List Int :=
  [0, 2, 1, 2, 1, 3, 3, 2, 1, 1, 1, 1, 1, 1, 1, 2, 1, 1, 1, 1, 1, 1, 2, 2,
   2, 1, 1, 1, 2, 1, 1, 3, 3, 5, 2, 2, 1, 3, 3, 3, 3, 1, 1, 1, 1, 1, 1, 1,
   1, 1, 1, 1, 1, 1, 1, 3, 5, 1, 1, 1, 3, 1, 5, 3, 3, 5, 2, 1, 2, 2, 2, 1,
   1, 3, 2, 5, 3, 2, 3, 3, 1, 3, 1, 1, 1, 1, 2, 1, 2, 3, 2, 1, 1, 1, 1, 3,
   2, 1, 0, 1, 1, 3, 3, 1, 1, 2, 3, 3, 5, 2, 2, 1, 5, 5, 3, 3, 5, 2, 2, 1,
   3, 3, 3, 3, 1, 1, 1, 1, 1, 1, 3, 1, 1, 1, 1, 1, 1, 1, 1, 1, 1, 1, 1, 1,
   1, 1, 1, 1, 3, 3, 3, 5, 2, 2, 1, 3, 3, 1, 1, 3, 1, 1, 1, 3, 3, 3, 5, 2,
   2, 1, 3, 3, 3, 1, 1, 1, 1, 1, 1, 1, 1, 1, 1, 1, 1, 1, 1, 3, 1, 3, 3]

/-- y.go:410-444. -/
@[irreducible] def yyChk : List Int :=
  [-1000, -1, -2, -3, -4, -5, 17, 18, -6, -7, -8, -9, -10, -11, -17, -27, -44, -48, -57, -65, 20, 36, 85, 64,
   61, 46, -3, -4, -5, 5, 5, -18, 19, -20, -21, -23, 21, 22, 23, 24, 25, 26, 27, 28, 29, 30, 31, 32,
   33, 13, 34, 35, -28, 19, -30, -31, -34, -32, -33, 39, 37, 38, 88, -45, 19, -47, 87, 86, -49, 19, -51, -52,
   -54, -55, 82, 83, 81, 84, 80, 79, 71, 72, 70, 73, 69, 74, 68, 75, 67, 76, 66, 77, 65, 78, 90, -58,
   19, -60, -61, -63, 62, 63, 91, -66, 19, -68, -69, -71, -73, 52, 57, 58, 59, 60, 53, 54, 55, 56, 47, 48,
   49, 51, 50, 16, 16, 16, 16, 16, 16, 16, 16, -19, -20, 45, -16, 4, 94, -22, -13, 5, 9, 10, 11, 12,
   -24, -26, 96, -25, 13, -29, 45, -16, -30, -32, -33, -35, -40, 7, -41, -13, 8, 14, 43, 16, -37, -38, -39, 40,
   41, 42, 7, 8, 94, -46, -47, 45, -16, 94, 94, -50, -51, 45, -16, -53, 94, 93, 6, 92, -56, 6, -59, -60,
   45, -16, -62, 94, 93, -64, 6, -67, -68, 45, -16, -70, -72, 94, -72, -70, 20, 16, 4, 16, 95, 16, 95, -13,
   16, 95, 36, 16, -36, -40, 89, 16, -42, 16, -43, -13, 7, 94, 14, 44, 16, 95, 97, 16, -14, -13, 7, 8,
   85, 16, 15, 15, 64, 16, 16, -12, -13, 16, 16, 16, 95, 61, 16, 16, -12, 16, 95, 46, 16, 16, 95, -12,
   16, 16, 16, -19, 94, -13, 14, -26, 97, 13, 16, -29, 16, 16, 95, -14, -15, 7, -38, -39, -13, 7, 8, 94,
   16, -46, 94, 94, 16, -50, -13, 94, 6, 16, -59, 94, 6, 16, -67, -72, 94, 95, -13, -43, 94, 7, 94, 16,
   16, 16, -13, 98]

/-- y.go:445-479. -/
@[irreducible] def yyDef : List Int :=
  [0, -2, 0, 2, 4, 8, 0, 0, 9, 10, 11, 12, 13, 14, 0, 0, 0, 0, 0, 0, 0, 0, 0, 0,
   0, 0, 1, 3, 7, 0, 0, 0, 0, 36, 0, 0, 0, 42, 43, 44, 45, 46, 47, 48, 49, 50, 51, 52,
   53, 54, 58, 59, 0, 0, 67, 0, 0, 71, 72, 0, 0, 0, 0, 0, 0, 111, 0, 0, 0, 0, 119, 0,
   0, 0, 124, 125, 126, 127, 128, 129, 132, 133, 134, 135, 136, 137, 138, 139, 140, 141, 142, 143, 144, 145, 146, 0,
   0, 154, 0, 0, 157, 158, 161, 0, 0, 169, 0, 0, 0, 173, 174, 175, 176, 177, 178, 179, 180, 181, 182, 183,
   184, 185, 186, 34, 66, 109, 117, 152, 167, 5, 6, 32, 35, 0, 0, 30, 0, 0, 57, 17, 18, 19, 20, 21,
   0, 61, 0, 0, 41, 64, 0, 0, 68, 69, 70, 0, 87, 0, 98, 91, 92, 93, 94, 77, 0, 80, 82, 83,
   84, 85, 0, 74, 0, 107, 110, 0, 0, 0, 0, 115, 118, 0, 0, 0, 0, 131, 0, 0, 0, 147, 150, 153,
   0, 0, 0, 0, 160, 0, 162, 165, 168, 0, 0, 0, 188, 0, 0, 0, 0, 0, 0, 37, 0, 38, 0, 0,
   39, 0, 0, 0, 76, 86, 0, 88, 0, 90, 97, 99, 100, 0, 103, 104, 78, 0, 0, 73, 0, 25, 26, 27,
   0, 0, 0, 0, 0, 0, 120, 0, 16, 121, 122, 123, 0, 0, 0, 155, 0, 156, 0, 0, 0, 170, 0, 0,
   171, 172, 63, 33, 31, 55, 0, 60, 0, 40, 106, 65, 105, 89, 96, 0, 0, 26, 79, 81, 22, 23, 24, 0,
   114, 108, 0, 0, 149, 116, 15, 130, 148, 164, 151, 159, 163, 190, 166, 187, 189, 0, 0, 95, 101, 28, 102, 75,
   112, 113, 56, 62]

/-- y.go:480-488. -/
@[irreducible] def yyTok1 : List Int :=
  [1, 3, 3, 3, 3, 3, 3, 3, 3, 3, 3, 3, 3, 3, 3, 3, 3, 3, 3, 3, 3, 3, 3, 3,
   3, 3, 3, 3, 3, 3, 3, 3, 3, 3, 94, 3, 3, 3, 3, 3, 96, 98, 3, 3, 97, 3, 3, 3,
   3, 3, 3, 3, 3, 3, 3, 3, 3, 3, 3, 95]

/-- y.go:489-501. -/
@[irreducible] def yyTok2 : List Int :=
  [2, 3, 4, 5, 6, 7, 8, 9, 10, 11, 12, 13, 14, 15, 16, 17, 18, 19, 20, 21, 22, 23, 24, 25,
   26, 27, 28, 29, 30, 31, 32, 33, 34, 35, 36, 37, 38, 39, 40, 41, 42, 43, 44, 45, 46, 47, 48, 49,
   50, 51, 52, 53, 54, 55, 56, 57, 58, 59, 60, 61, 62, 63, 64, 65, 66, 67, 68, 69, 70, 71, 72, 73,
   74, 75, 76, 77, 78, 79, 80, 81, 82, 83, 84, 85, 86, 87, 88, 89, 90, 91, 92, 93]

/-- y.go:502-504. -/
@[irreducible] def yyTok3 : List Int :=
  [0]

/-- y.go:266. -/
abbrev yyLast : Int := 468

/-- y.go:545. -/
abbrev yyFlag : Int := -1000

/-- y.go:264. -/
abbrev yyPrivate : Int := 57344

/-- y.go:253. -/
abbrev yyEofCode : Int := 1

/-- y.go:254. -/
abbrev yyErrCode : Int := 2

end Locale
