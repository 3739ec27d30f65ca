import Verif.Model.Yacc

/-!
# The tables that PLY builds for the grammar

These are the values that `build` computes (`Verif.Proofs.Tables`), written out.  The entries of a row with the same action are put
together: a set of tokens, and the action.
-/

namespace PythonDice.Yacc

/-- The action table, states 0 to 19. -/
def actions0 : List (List (ℕ × Action)) :=
  [[(67108864, .shift 12), (4294967296, .shift 4), (8589934592, .shift 5), (17179869184, .shift 6), (137438953472, .shift 8),
    (549755813888, .shift 11), (2199023255552, .shift 7), (4398046511104, .reduce 4)], [(67108864, .shift 12), (4294967296,
    .shift 4), (8589934592, .shift 5), (17179869184, .shift 6), (137438953472, .shift 8), (549755813888, .shift 11),
    (2199023255552, .shift 7), (4398046511104, .accept)], [(7314400608256, .reduce 1)], [(7314400608256, .reduce 3)], [(2,
    .shift 17), (4, .shift 18), (4096, .shift 20), (32768, .shift 19), (524288, .shift 21), (2097152, .shift 24), (8388608,
    .shift 26), (67108864, .shift 12), (134217728, .shift 22), (268435456, .shift 16), (536870912, .shift 27), (1073741824,
    .shift 29), (2147483648, .shift 28)], [(64, .shift 30)], [(67108864, .shift 12)], [(64, .shift 32)], [(536870912, .shift
    27), (1073741824, .shift 29), (2147483648, .shift 28)], [(7314400608256, .reduce 12), (1099511627776, .shift 36)], [(64,
    .shift 37)], [(2, .shift 17), (4, .shift 18), (4096, .shift 20), (32768, .shift 19), (524288, .shift 21), (2097152, .shift
    24), (8388608, .shift 26), (67108864, .shift 12), (134217728, .shift 22), (268435456, .shift 16), (536870912, .shift 27),
    (1073741824, .shift 29), (2147483648, .shift 28)], [(8796092956670, .reduce 21)], [(7314400608256, .reduce 2)], [(2, .shift
    40), (4, .shift 41), (8, .shift 42), (16, .shift 43), (32, .shift 44), (128, .shift 48), (256, .shift 49), (512, .shift
    50), (1024, .shift 51), (2048, .shift 45), (8192, .shift 47), (16384, .shift 46), (7314400608256, .reduce 5), (68719476736,
    .shift 39)], [(8795824521150, .reduce 75), (268435456, .shift 52)], [(2, .shift 17), (4, .shift 18), (4096, .shift 20),
    (32768, .shift 19), (524288, .shift 21), (2097152, .shift 24), (8388608, .shift 26), (67108864, .shift 12), (134217728,
    .shift 22), (536870912, .shift 27), (1073741824, .shift 29), (2147483648, .shift 28)], [(2, .shift 17), (4, .shift 18),
    (4096, .shift 20), (32768, .shift 19), (524288, .shift 21), (2097152, .shift 24), (8388608, .shift 26), (67108864, .shift
    12), (134217728, .shift 22), (536870912, .shift 27), (1073741824, .shift 29), (2147483648, .shift 28)], [(2, .shift 17),
    (4, .shift 18), (4096, .shift 20), (32768, .shift 19), (524288, .shift 21), (2097152, .shift 24), (8388608, .shift 26),
    (67108864, .shift 12), (134217728, .shift 22), (536870912, .shift 27), (1073741824, .shift 29), (2147483648, .shift 28)],
    [(2, .shift 17), (4, .shift 18), (4096, .shift 20), (32768, .shift 19), (524288, .shift 21), (2097152, .shift 24),
    (8388608, .shift 26), (67108864, .shift 12), (134217728, .shift 22), (536870912, .shift 27), (1073741824, .shift 29),
    (2147483648, .shift 28)]]

/-- The action table, states 20 to 39. -/
def actions20 : List (List (ℕ × Action)) :=
  [[(2, .shift 17), (4, .shift 18), (4096, .shift 20), (32768, .shift 19), (524288, .shift 21), (2097152, .shift 24), (8388608,
    .shift 26), (67108864, .shift 12), (134217728, .shift 22), (536870912, .shift 27), (1073741824, .shift 29), (2147483648,
    .shift 28)], [(2, .shift 17), (4, .shift 18), (4096, .shift 20), (32768, .shift 19), (524288, .shift 21), (2097152, .shift
    24), (8388608, .shift 26), (67108864, .shift 12), (134217728, .shift 22), (268435456, .shift 16), (536870912, .shift 27),
    (1073741824, .shift 29), (2147483648, .shift 28)], [(8796092956606, .reduce 81), (65536, .shift 59)], [(8796092956606,
    .reduce 83)], [(2, .shift 17), (4, .shift 18), (4096, .shift 20), (32768, .shift 19), (524288, .shift 21), (2097152, .shift
    24), (4194304, .shift 60), (8388608, .shift 26), (67108864, .shift 12), (134217728, .shift 22), (268435456, .shift 16),
    (536870912, .shift 27), (1073741824, .shift 29), (2147483648, .shift 28)], [(8792334860222, .reduce 91), (536870912, .shift
    65), (1073741824, .shift 67), (2147483648, .shift 66)], [(2, .shift 17), (4, .shift 18), (4096, .shift 20), (32768, .shift
    19), (524288, .shift 21), (2097152, .shift 24), (8388608, .shift 26), (33554432, .shift 69), (67108864, .shift 12),
    (134217728, .shift 22), (268435456, .shift 16), (536870912, .shift 27), (1073741824, .shift 29), (2147483648, .shift 28),
    (4294967296, .shift 70), (8589934592, .shift 71), (17179869184, .shift 72), (34359738368, .shift 73), (68719476736, .shift
    74), (137438953472, .shift 75), (274877906944, .shift 76), (549755813888, .shift 77), (1099511627776, .shift 78),
    (2199023255552, .shift 79)], [(8796092956606, .reduce 22)], [(8796092956606, .reduce 23)], [(8796092956606, .reduce 26)],
    [(2097152, .reduce 50), (33554432, .shift 82), (67108864, .shift 12), (268435456, .shift 93), (4294967296, .shift 83),
    (8589934592, .shift 84), (17179869184, .shift 85), (34359738368, .shift 86), (68719476736, .shift 87), (137438953472,
    .shift 88), (274877906944, .shift 89), (549755813888, .shift 90), (1099511627776, .shift 91), (2199023255552, .shift 92)],
    [(34359738368, .shift 95)], [(2, .shift 17), (4, .shift 18), (4096, .shift 20), (32768, .shift 19), (524288, .shift 21),
    (2097152, .shift 24), (8388608, .shift 26), (67108864, .shift 12), (134217728, .shift 22), (268435456, .shift 16),
    (536870912, .shift 27), (1073741824, .shift 29), (2147483648, .shift 28)], [(536870912, .shift 65), (1073741824, .shift
    67), (2147483648, .shift 66), (274877906944, .shift 97)], [(7314400608256, .reduce 13)], [(7314400608256, .reduce 14),
    (1099511627776, .shift 99)], [(2097152, .shift 100), (549755813888, .shift 101)], [(2, .shift 17), (4, .shift 18), (4096,
    .shift 20), (32768, .shift 19), (524288, .shift 21), (2097152, .shift 24), (8388608, .shift 26), (67108864, .shift 12),
    (134217728, .shift 22), (268435456, .shift 16), (536870912, .shift 27), (1073741824, .shift 29), (2147483648, .shift 28)],
    [(2, .shift 40), (4, .shift 41), (8, .shift 42), (16, .shift 43), (32, .shift 44), (128, .shift 48), (256, .shift 49),
    (512, .shift 50), (1024, .shift 51), (2048, .shift 45), (8192, .shift 47), (16384, .shift 46), (2097152, .shift 103)],
    [(536870912, .shift 27), (1073741824, .shift 29), (2147483648, .shift 28)]]

/-- The action table, states 40 to 59. -/
def actions40 : List (List (ℕ × Action)) :=
  [[(2, .shift 17), (4, .shift 18), (4096, .shift 20), (32768, .shift 19), (524288, .shift 21), (2097152, .shift 24), (8388608,
    .shift 26), (67108864, .shift 12), (134217728, .shift 22), (268435456, .shift 16), (536870912, .shift 27), (1073741824,
    .shift 29), (2147483648, .shift 28)], [(2, .shift 17), (4, .shift 18), (4096, .shift 20), (32768, .shift 19), (524288,
    .shift 21), (2097152, .shift 24), (8388608, .shift 26), (67108864, .shift 12), (134217728, .shift 22), (268435456, .shift
    16), (536870912, .shift 27), (1073741824, .shift 29), (2147483648, .shift 28)], [(2, .shift 17), (4, .shift 18), (4096,
    .shift 20), (32768, .shift 19), (524288, .shift 21), (2097152, .shift 24), (8388608, .shift 26), (67108864, .shift 12),
    (134217728, .shift 22), (268435456, .shift 16), (536870912, .shift 27), (1073741824, .shift 29), (2147483648, .shift 28)],
    [(2, .shift 17), (4, .shift 18), (4096, .shift 20), (32768, .shift 19), (524288, .shift 21), (2097152, .shift 24),
    (8388608, .shift 26), (67108864, .shift 12), (134217728, .shift 22), (268435456, .shift 16), (536870912, .shift 27),
    (1073741824, .shift 29), (2147483648, .shift 28)], [(2, .shift 17), (4, .shift 18), (4096, .shift 20), (32768, .shift 19),
    (524288, .shift 21), (2097152, .shift 24), (8388608, .shift 26), (67108864, .shift 12), (134217728, .shift 22), (268435456,
    .shift 16), (536870912, .shift 27), (1073741824, .shift 29), (2147483648, .shift 28)], [(2, .shift 17), (4, .shift 18),
    (4096, .shift 20), (32768, .shift 19), (524288, .shift 21), (2097152, .shift 24), (8388608, .shift 26), (67108864, .shift
    12), (134217728, .shift 22), (268435456, .shift 16), (536870912, .shift 27), (1073741824, .shift 29), (2147483648, .shift
    28)], [(2, .shift 17), (4, .shift 18), (4096, .shift 20), (32768, .shift 19), (524288, .shift 21), (2097152, .shift 24),
    (8388608, .shift 26), (67108864, .shift 12), (134217728, .shift 22), (268435456, .shift 16), (536870912, .shift 27),
    (1073741824, .shift 29), (2147483648, .shift 28)], [(2, .shift 17), (4, .shift 18), (4096, .shift 20), (32768, .shift 19),
    (524288, .shift 21), (2097152, .shift 24), (8388608, .shift 26), (67108864, .shift 12), (134217728, .shift 22), (268435456,
    .shift 16), (536870912, .shift 27), (1073741824, .shift 29), (2147483648, .shift 28)], [(2, .shift 17), (4, .shift 18),
    (512, .shift 114), (4096, .shift 20), (32768, .shift 19), (524288, .shift 21), (2097152, .shift 24), (8388608, .shift 26),
    (67108864, .shift 12), (134217728, .shift 22), (268435456, .shift 16), (536870912, .shift 27), (1073741824, .shift 29),
    (2147483648, .shift 28)], [(2, .shift 17), (4, .shift 18), (512, .shift 116), (4096, .shift 20), (32768, .shift 19),
    (524288, .shift 21), (2097152, .shift 24), (8388608, .shift 26), (67108864, .shift 12), (134217728, .shift 22), (268435456,
    .shift 16), (536870912, .shift 27), (1073741824, .shift 29), (2147483648, .shift 28)], [(2, .shift 17), (4, .shift 18),
    (4096, .shift 20), (32768, .shift 19), (524288, .shift 21), (2097152, .shift 24), (8388608, .shift 26), (67108864, .shift
    12), (134217728, .shift 22), (268435456, .shift 16), (536870912, .shift 27), (1073741824, .shift 29), (2147483648, .shift
    28)], [(2, .shift 17), (4, .shift 18), (4096, .shift 20), (32768, .shift 19), (524288, .shift 21), (2097152, .shift 24),
    (8388608, .shift 26), (67108864, .shift 12), (134217728, .shift 22), (268435456, .shift 16), (536870912, .shift 27),
    (1073741824, .shift 29), (2147483648, .shift 28)], [(2, .shift 17), (4, .shift 18), (4096, .shift 20), (32768, .shift 19),
    (524288, .shift 21), (2097152, .shift 24), (8388608, .shift 26), (67108864, .shift 12), (134217728, .shift 22), (536870912,
    .shift 27), (1073741824, .shift 29), (2147483648, .shift 28)], [(8796092956606, .reduce 68)], [(8796092956606, .reduce
    76)], [(8796092956606, .reduce 77)], [(8796092956606, .reduce 78)], [(8796092956606, .reduce 79)], [(2, .shift 40), (4,
    .shift 41), (8, .shift 42), (16, .shift 43), (32, .shift 44), (128, .shift 48), (256, .shift 49), (512, .shift 50), (1024,
    .shift 51), (2048, .shift 45), (8192, .shift 47), (16384, .shift 46), (1048576, .shift 120)], [(134217728, .shift 121)]]

/-- The action table, states 60 to 79. -/
def actions60 : List (List (ℕ × Action)) :=
  [[(8796092956606, .reduce 84)], [(262144, .shift 123), (4194304, .shift 122)], [(4456448, .reduce 87)], [(2, .shift 40), (4,
    .shift 41), (8, .shift 42), (16, .shift 43), (32, .shift 44), (128, .shift 48), (256, .shift 49), (512, .shift 50), (1024,
    .shift 51), (2048, .shift 45), (8192, .shift 47), (16384, .shift 46), (131072, .shift 124), (4456448, .reduce 88)],
    [(4456448, .reduce 89)], [(8796092956606, .reduce 24)], [(8796092956606, .reduce 25)], [(8796092956606, .reduce 27)], [(2,
    .shift 17), (4, .shift 18), (4096, .shift 20), (32768, .shift 19), (524288, .shift 21), (2097152, .shift 24), (8388608,
    .shift 26), (16777216, .shift 125), (33554432, .shift 126), (67108864, .shift 12), (134217728, .shift 22), (268435456,
    .shift 16), (536870912, .shift 27), (1073741824, .shift 29), (2147483648, .shift 28), (4294967296, .shift 127),
    (8589934592, .shift 128), (17179869184, .shift 129), (34359738368, .shift 130), (68719476736, .shift 131), (137438953472,
    .shift 132), (274877906944, .shift 133), (549755813888, .shift 134), (1099511627776, .shift 135), (2199023255552, .shift
    136)], [(4398040780806, .reduce 93)], [(4398040780806, .reduce 94)], [(4398040780806, .reduce 95)], [(4398040780806,
    .reduce 96)], [(4398040780806, .reduce 97)], [(4398040780806, .reduce 98)], [(4398040780806, .reduce 99)], [(4398040780806,
    .reduce 100)], [(4398040780806, .reduce 101)], [(4398040780806, .reduce 102)], [(4398040780806, .reduce 103)]]

/-- The action table, states 80 to 99. -/
def actions80 : List (List (ℕ × Action)) :=
  [[(2, .shift 40), (4, .shift 41), (8, .shift 42), (16, .shift 43), (32, .shift 44), (128, .shift 48), (256, .shift 49), (512,
    .shift 50), (1024, .shift 51), (2048, .shift 45), (4398040780800, .reduce 115), (8192, .shift 47), (16384, .shift 46)],
    [(2097152, .shift 138), (33554432, .shift 139), (67108864, .shift 12), (268435456, .shift 150), (4294967296, .shift 140),
    (8589934592, .shift 141), (17179869184, .shift 142), (34359738368, .shift 143), (68719476736, .shift 144), (137438953472,
    .shift 145), (274877906944, .shift 146), (549755813888, .shift 147), (1099511627776, .shift 148), (2199023255552, .shift
    149)], [(4394122739712, .reduce 28)], [(4394122739712, .reduce 29)], [(4394122739712, .reduce 30)], [(4394122739712,
    .reduce 31)], [(4394122739712, .reduce 32)], [(4394122739712, .reduce 33)], [(4394122739712, .reduce 34)], [(4394122739712,
    .reduce 35)], [(4394122739712, .reduce 36)], [(4394122739712, .reduce 37)], [(4394122739712, .reduce 38)], [(4394122739712,
    .reduce 51)], [(64, .shift 152), (4394122739712, .reduce 53)], [(2, .shift 17), (4, .shift 18), (4096, .shift 20), (32768,
    .shift 19), (524288, .shift 21), (2097152, .shift 24), (8388608, .shift 26), (67108864, .shift 12), (134217728, .shift 22),
    (268435456, .shift 16), (536870912, .shift 27), (1073741824, .shift 29), (2147483648, .shift 28)], [(2, .shift 40), (4,
    .shift 41), (8, .shift 42), (16, .shift 43), (32, .shift 44), (128, .shift 48), (256, .shift 49), (512, .shift 50), (1024,
    .shift 51), (2048, .shift 45), (8192, .shift 47), (16384, .shift 46), (7314400608256, .reduce 9)], [(2, .shift 17), (4,
    .shift 18), (4096, .shift 20), (32768, .shift 19), (524288, .shift 21), (2097152, .shift 24), (8388608, .shift 26),
    (67108864, .shift 12), (134217728, .shift 22), (268435456, .shift 16), (536870912, .shift 27), (1073741824, .shift 29),
    (2147483648, .shift 28)], [(7314400608256, .reduce 15)], [(2097152, .shift 100), (549755813888, .shift 156)]]

/-- The action table, states 100 to 119. -/
def actions100 : List (List (ℕ × Action)) :=
  [[(4194304, .reduce 4), (67108864, .shift 12), (4294967296, .shift 4), (8589934592, .shift 5), (17179869184, .shift 6),
    (137438953472, .shift 8), (549755813888, .shift 11), (2199023255552, .shift 7)], [(2, .shift 17), (4, .shift 18), (4096,
    .shift 20), (32768, .shift 19), (524288, .shift 21), (2097152, .shift 24), (8388608, .shift 26), (67108864, .shift 12),
    (134217728, .shift 22), (268435456, .shift 16), (536870912, .shift 27), (1073741824, .shift 29), (2147483648, .shift 28)],
    [(2, .shift 40), (4, .shift 41), (8, .shift 42), (16, .shift 43), (32, .shift 44), (128, .shift 48), (256, .shift 49),
    (512, .shift 50), (1024, .shift 51), (2048, .shift 45), (8192, .shift 47), (16384, .shift 46), (7314400608256, .reduce
    20)], [(4194304, .reduce 4), (67108864, .shift 12), (4294967296, .shift 4), (8589934592, .shift 5), (17179869184, .shift
    6), (137438953472, .shift 8), (549755813888, .shift 11), (2199023255552, .shift 7)], [(7314400608256, .reduce 6),
    (536870912, .shift 65), (1073741824, .shift 67), (2147483648, .shift 66)], [(8796092954502, .reduce 59), (8, .shift 42),
    (16, .shift 43), (32, .shift 44), (2048, .shift 45)], [(8796092954502, .reduce 60), (8, .shift 42), (16, .shift 43), (32,
    .shift 44), (2048, .shift 45)], [(8796092954526, .reduce 61), (32, .shift 44), (2048, .shift 45)], [(8796092954526, .reduce
    62), (32, .shift 44), (2048, .shift 45)], [(8796092954558, .reduce 63), (2048, .shift 45)], [(8796092956606, .reduce 64)],
    [(2, .shift 40), (4, .shift 41), (8, .shift 42), (16, .shift 43), (32, .shift 44), (128, .shift 48), (256, .shift 49),
    (512, .shift 50), (1024, .shift 51), (2048, .shift 45), (8796092952576, .reduce 65)], [(2, .shift 40), (4, .shift 41), (8,
    .shift 42), (16, .shift 43), (32, .shift 44), (128, .shift 48), (256, .shift 49), (512, .shift 50), (1024, .shift 51),
    (2048, .shift 45), (8796092936192, .reduce 66), (16384, .shift 46)], [(2, .shift 40), (4, .shift 41), (8, .shift 42), (16,
    .shift 43), (32, .shift 44), (8796092954496, .reduce 69), (2048, .shift 45)], [(2, .shift 17), (4, .shift 18), (4096,
    .shift 20), (32768, .shift 19), (524288, .shift 21), (2097152, .shift 24), (8388608, .shift 26), (67108864, .shift 12),
    (134217728, .shift 22), (268435456, .shift 16), (536870912, .shift 27), (1073741824, .shift 29), (2147483648, .shift 28)],
    [(2, .shift 40), (4, .shift 41), (8, .shift 42), (16, .shift 43), (32, .shift 44), (8796092954496, .reduce 70), (2048,
    .shift 45)], [(2, .shift 17), (4, .shift 18), (4096, .shift 20), (32768, .shift 19), (524288, .shift 21), (2097152, .shift
    24), (8388608, .shift 26), (67108864, .shift 12), (134217728, .shift 22), (268435456, .shift 16), (536870912, .shift 27),
    (1073741824, .shift 29), (2147483648, .shift 28)], [(2, .shift 40), (4, .shift 41), (8, .shift 42), (16, .shift 43), (32,
    .shift 44), (8796092954496, .reduce 71), (2048, .shift 45)], [(2, .shift 40), (4, .shift 41), (8, .shift 42), (16, .shift
    43), (32, .shift 44), (8796092954496, .reduce 72), (2048, .shift 45)], [(8796092956606, .reduce 67)]]

/-- The action table, states 120 to 139. -/
def actions120 : List (List (ℕ × Action)) :=
  [[(8796092956606, .reduce 80)], [(8796092956606, .reduce 82)], [(8796092956606, .reduce 85)], [(2, .shift 17), (4, .shift
    18), (4096, .shift 20), (32768, .shift 19), (524288, .shift 21), (2097152, .shift 24), (8388608, .shift 26), (67108864,
    .shift 12), (134217728, .shift 22), (268435456, .shift 16), (536870912, .shift 27), (1073741824, .shift 29), (2147483648,
    .shift 28)], [(2, .shift 17), (4, .shift 18), (4096, .shift 20), (32768, .shift 19), (524288, .shift 21), (2097152, .shift
    24), (8388608, .shift 26), (67108864, .shift 12), (134217728, .shift 22), (268435456, .shift 16), (536870912, .shift 27),
    (1073741824, .shift 29), (2147483648, .shift 28)], [(8796092956606, .reduce 92)], [(4398040780806, .reduce 104)],
    [(4398040780806, .reduce 105)], [(4398040780806, .reduce 106)], [(4398040780806, .reduce 107)], [(4398040780806, .reduce
    108)], [(4398040780806, .reduce 109)], [(4398040780806, .reduce 110)], [(4398040780806, .reduce 111)], [(4398040780806,
    .reduce 112)], [(4398040780806, .reduce 113)], [(4398040780806, .reduce 114)], [(2, .shift 40), (4, .shift 41), (8, .shift
    42), (16, .shift 43), (32, .shift 44), (128, .shift 48), (256, .shift 49), (512, .shift 50), (1024, .shift 51), (2048,
    .shift 45), (4398040780800, .reduce 116), (8192, .shift 47), (16384, .shift 46)], [(4194304, .reduce 4), (67108864, .shift
    12), (4294967296, .shift 4), (8589934592, .shift 5), (17179869184, .shift 6), (137438953472, .shift 8), (549755813888,
    .shift 11), (2199023255552, .shift 7)], [(4394122739712, .reduce 39)]]

/-- The action table, states 140 to 159. -/
def actions140 : List (List (ℕ × Action)) :=
  [[(4394122739712, .reduce 40)], [(4394122739712, .reduce 41)], [(4394122739712, .reduce 42)], [(4394122739712, .reduce 43)],
    [(4394122739712, .reduce 44)], [(4394122739712, .reduce 45)], [(4394122739712, .reduce 46)], [(4394122739712, .reduce 47)],
    [(4394122739712, .reduce 48)], [(4394122739712, .reduce 49)], [(4394122739712, .reduce 52)], [(64, .shift 165),
    (4394122739712, .reduce 56)], [(33554432, .shift 167), (268435456, .shift 166)], [(2, .shift 40), (4, .shift 41), (8,
    .shift 42), (16, .shift 43), (32, .shift 44), (128, .shift 48), (256, .shift 49), (512, .shift 50), (1024, .shift 51),
    (2048, .shift 45), (8192, .shift 47), (16384, .shift 46), (2097152, .shift 168)], [(268464062, .reduce 91), (7314400608256,
    .reduce 10), (536870912, .shift 65), (1073741824, .shift 67), (2147483648, .shift 66)], [(2, .shift 40), (4, .shift 41),
    (8, .shift 42), (16, .shift 43), (32, .shift 44), (128, .shift 48), (256, .shift 49), (512, .shift 50), (1024, .shift 51),
    (2048, .shift 45), (8192, .shift 47), (16384, .shift 46), (7314400608256, .reduce 11)], [(2, .shift 17), (4, .shift 18),
    (4096, .shift 20), (32768, .shift 19), (524288, .shift 21), (2097152, .shift 24), (8388608, .shift 26), (67108864, .shift
    12), (134217728, .shift 22), (268435456, .shift 16), (536870912, .shift 27), (1073741824, .shift 29), (2147483648, .shift
    28)], [(4194304, .shift 170), (67108864, .shift 12), (4294967296, .shift 4), (8589934592, .shift 5), (17179869184, .shift
    6), (137438953472, .shift 8), (549755813888, .shift 11), (2199023255552, .shift 7)], [(2, .shift 40), (4, .shift 41), (8,
    .shift 42), (16, .shift 43), (32, .shift 44), (128, .shift 48), (256, .shift 49), (512, .shift 50), (1024, .shift 51),
    (2048, .shift 45), (8192, .shift 47), (16384, .shift 46), (2097152, .shift 171)], [(4194304, .shift 172), (67108864, .shift
    12), (4294967296, .shift 4), (8589934592, .shift 5), (17179869184, .shift 6), (137438953472, .shift 8), (549755813888,
    .shift 11), (2199023255552, .shift 7)]]

/-- The action table, states 160 to 179. -/
def actions160 : List (List (ℕ × Action)) :=
  [[(2, .shift 40), (4, .shift 41), (8, .shift 42), (16, .shift 43), (32, .shift 44), (8796092954496, .reduce 73), (2048,
    .shift 45)], [(2, .shift 40), (4, .shift 41), (8, .shift 42), (16, .shift 43), (32, .shift 44), (8796092954496, .reduce
    74), (2048, .shift 45)], [(4456448, .reduce 86)], [(2, .shift 40), (4, .shift 41), (8, .shift 42), (16, .shift 43), (32,
    .shift 44), (128, .shift 48), (256, .shift 49), (512, .shift 50), (1024, .shift 51), (2048, .shift 45), (8192, .shift 47),
    (16384, .shift 46), (4456448, .reduce 90)], [(4194304, .shift 173), (67108864, .shift 12), (4294967296, .shift 4),
    (8589934592, .shift 5), (17179869184, .shift 6), (137438953472, .shift 8), (549755813888, .shift 11), (2199023255552,
    .shift 7)], [(33554432, .shift 175), (268435456, .shift 174)], [(4394122739712, .reduce 54)], [(4394122739712, .reduce
    55)], [(4194304, .reduce 4), (67108864, .shift 12), (4294967296, .shift 4), (8589934592, .shift 5), (17179869184, .shift
    6), (137438953472, .shift 8), (549755813888, .shift 11), (2199023255552, .shift 7)], [(2, .shift 40), (4, .shift 41), (8,
    .shift 42), (16, .shift 43), (32, .shift 44), (128, .shift 48), (256, .shift 49), (512, .shift 50), (1024, .shift 51),
    (2048, .shift 45), (8192, .shift 47), (16384, .shift 46), (2097152, .shift 177)], [(7314400608256, .reduce 17)], [(4194304,
    .reduce 4), (67108864, .shift 12), (4294967296, .shift 4), (8589934592, .shift 5), (17179869184, .shift 6), (137438953472,
    .shift 8), (549755813888, .shift 11), (2199023255552, .shift 7)], [(8413912236032, .reduce 16)], [(7314400608256, .reduce
    7)], [(4394122739712, .reduce 57)], [(4394122739712, .reduce 58)], [(4194304, .shift 179), (67108864, .shift 12),
    (4294967296, .shift 4), (8589934592, .shift 5), (17179869184, .shift 6), (137438953472, .shift 8), (549755813888, .shift
    11), (2199023255552, .shift 7)], [(4194304, .reduce 4), (67108864, .shift 12), (4294967296, .shift 4), (8589934592, .shift
    5), (17179869184, .shift 6), (137438953472, .shift 8), (549755813888, .shift 11), (2199023255552, .shift 7)], [(4194304,
    .shift 181), (67108864, .shift 12), (4294967296, .shift 4), (8589934592, .shift 5), (17179869184, .shift 6), (137438953472,
    .shift 8), (549755813888, .shift 11), (2199023255552, .shift 7)], [(7314400608256, .reduce 8)]]

/-- The action table, states 180 to 182. -/
def actions180 : List (List (ℕ × Action)) :=
  [[(4194304, .shift 182), (67108864, .shift 12), (4294967296, .shift 4), (8589934592, .shift 5), (17179869184, .shift 6),
    (137438953472, .shift 8), (549755813888, .shift 11), (2199023255552, .shift 7)], [(8413912236032, .reduce 18)],
    [(8413912236032, .reduce 19)]]

/-- The action table. -/
def actionData : List (List (ℕ × Action)) :=
  actions0 ++ actions20 ++ actions40 ++ actions60 ++ actions80 ++ actions100 ++ actions120 ++ actions140 ++ actions160 ++ actions180

/-- The goto table. -/
def gotoData : List (List (ℕ × ℕ)) :=
  [[(65, 1), (67, 2), (66, 3), (68, 9), (71, 10)], [(67, 13), (68, 9), (71, 10)], [], [], [(74, 14), (75, 15), (71, 23), (72,
    25)], [], [(71, 31)], [], [(72, 33)], [(69, 34), (70, 35)], [], [(74, 38), (75, 15), (71, 23), (72, 25)], [], [], [], [],
    [(75, 53), (71, 23), (72, 25)], [(75, 54), (71, 23), (72, 25)], [(75, 55), (71, 23), (72, 25)], [(75, 56), (71, 23), (72,
    25)], [(75, 57), (71, 23), (72, 25)], [(74, 58), (75, 15), (71, 23), (72, 25)], [], [], [(76, 61), (77, 62), (74, 63), (78,
    64), (75, 15), (71, 23), (72, 25)], [], [(79, 68), (74, 80), (75, 15), (71, 23), (72, 25)], [], [], [], [(73, 81), (71,
    94)], [], [(74, 96), (75, 15), (71, 23), (72, 25)], [], [], [(69, 98)], [], [(74, 102), (75, 15), (71, 23), (72, 25)], [],
    [(72, 104)], [(74, 105), (75, 15), (71, 23), (72, 25)], [(74, 106), (75, 15), (71, 23), (72, 25)], [(74, 107), (75, 15),
    (71, 23), (72, 25)], [(74, 108), (75, 15), (71, 23), (72, 25)], [(74, 109), (75, 15), (71, 23), (72, 25)], [(74, 110), (75,
    15), (71, 23), (72, 25)], [(74, 111), (75, 15), (71, 23), (72, 25)], [(74, 112), (75, 15), (71, 23), (72, 25)], [(74, 113),
    (75, 15), (71, 23), (72, 25)], [(74, 115), (75, 15), (71, 23), (72, 25)], [(74, 117), (75, 15), (71, 23), (72, 25)], [(74,
    118), (75, 15), (71, 23), (72, 25)], [(75, 119), (71, 23), (72, 25)], [], [], [], [], [], [], [], [], [], [], [], [], [],
    [], [], [(74, 137), (75, 15), (71, 23), (72, 25)], [], [], [], [], [], [], [], [], [], [], [], [], [(71, 151)], [], [], [],
    [], [], [], [], [], [], [], [], [], [], [(74, 153), (75, 15), (71, 23), (72, 25)], [], [(72, 154), (74, 155), (75, 15),
    (71, 23)], [], [], [(65, 157), (67, 2), (66, 3), (68, 9), (71, 10)], [(74, 158), (75, 15), (71, 23), (72, 25)], [], [(65,
    159), (67, 2), (66, 3), (68, 9), (71, 10)], [], [], [], [], [], [], [], [], [], [], [(74, 160), (75, 15), (71, 23), (72,
    25)], [], [(74, 161), (75, 15), (71, 23), (72, 25)], [], [], [], [], [], [], [(77, 162), (74, 63), (78, 64), (75, 15), (71,
    23), (72, 25)], [(74, 163), (75, 15), (71, 23), (72, 25)], [], [], [], [], [], [], [], [], [], [], [], [], [], [(65, 164),
    (67, 2), (66, 3), (68, 9), (71, 10)], [], [], [], [], [], [], [], [], [], [], [], [], [], [], [], [], [], [(74, 169), (75,
    15), (71, 23), (72, 25)], [(67, 13), (68, 9), (71, 10)], [], [(67, 13), (68, 9), (71, 10)], [], [], [], [], [(67, 13), (68,
    9), (71, 10)], [], [], [], [(65, 176), (67, 2), (66, 3), (68, 9), (71, 10)], [], [], [(65, 178), (67, 2), (66, 3), (68, 9),
    (71, 10)], [], [], [], [], [(67, 13), (68, 9), (71, 10)], [(65, 180), (67, 2), (66, 3), (68, 9), (71, 10)], [(67, 13), (68,
    9), (71, 10)], [], [(67, 13), (68, 9), (71, 10)], [], []]

/-- The action in a row. -/
def rowAction (a : ℕ) : List (ℕ × Action) → Option Action
  | [] => none
  | (set, x) :: l => if set.testBit a then some x else rowAction a l

/-- All entries of a row. -/
def expandRow (row : List (ℕ × Action)) : List (ℕ × Action) :=
  (List.range 42).filterMap fun i => (rowAction (i + 1) row).map fun x => (i + 1, x)

/-- The tables written out. -/
def tableData : Tables := ⟨actionData.map expandRow, gotoData⟩

end PythonDice.Yacc
