/- Generated by tools/gen_tables.py.
`ndRanges`: code points of Unicode category Nd, i.e. what `\d` matches in a `str` pattern and
`int()` accepts (unicodedata 14.0.0); every range starts with a digit zero.
`punctRanges`: the character class of `rePunctuation`, /repo/commonmark/inlines.py:25-44.  The
surrogate-pair alternatives (lines 44-50) cannot match a single character of a Python 3 string. -/
namespace CM

def ndRanges0 : List (Nat × Nat) := [
  (0x30, 0x39), (0x660, 0x669), (0x6f0, 0x6f9), (0x7c0, 0x7c9), (0x966, 0x96f), (0x9e6, 0x9ef),
  (0xa66, 0xa6f), (0xae6, 0xaef), (0xb66, 0xb6f), (0xbe6, 0xbef), (0xc66, 0xc6f), (0xce6, 0xcef),
  (0xd66, 0xd6f), (0xde6, 0xdef), (0xe50, 0xe59), (0xed0, 0xed9), (0xf20, 0xf29), (0x1040, 0x1049),
  (0x1090, 0x1099), (0x17e0, 0x17e9), (0x1810, 0x1819), (0x1946, 0x194f), (0x19d0, 0x19d9),
  (0x1a80, 0x1a89), (0x1a90, 0x1a99), (0x1b50, 0x1b59), (0x1bb0, 0x1bb9), (0x1c40, 0x1c49),
  (0x1c50, 0x1c59), (0xa620, 0xa629), (0xa8d0, 0xa8d9), (0xa900, 0xa909), (0xa9d0, 0xa9d9),
  (0xa9f0, 0xa9f9), (0xaa50, 0xaa59), (0xabf0, 0xabf9), (0xff10, 0xff19), (0x104a0, 0x104a9),
  (0x10d30, 0x10d39), (0x11066, 0x1106f), (0x110f0, 0x110f9), (0x11136, 0x1113f),
  (0x111d0, 0x111d9), (0x112f0, 0x112f9), (0x11450, 0x11459), (0x114d0, 0x114d9),
  (0x11650, 0x11659), (0x116c0, 0x116c9), (0x11730, 0x11739), (0x118e0, 0x118e9),
  (0x11950, 0x11959), (0x11c50, 0x11c59), (0x11d50, 0x11d59), (0x11da0, 0x11da9),
  (0x16a60, 0x16a69), (0x16ac0, 0x16ac9), (0x16b50, 0x16b59), (0x1d7ce, 0x1d7ff),
  (0x1e140, 0x1e149), (0x1e2f0, 0x1e2f9), (0x1e950, 0x1e959), (0x1fbf0, 0x1fbf9)]

def ndRanges : List (Nat × Nat) :=
  ndRanges0

def punctRanges0 : List (Nat × Nat) := [
  (0x21, 0x21), (0x22, 0x22), (0x23, 0x23), (0x24, 0x24), (0x25, 0x25), (0x26, 0x26), (0x27, 0x27),
  (0x28, 0x28), (0x29, 0x29), (0x2a, 0x2a), (0x2b, 0x2b), (0x2c, 0x2c), (0x2d, 0x2d), (0x2e, 0x2e),
  (0x2f, 0x2f), (0x3a, 0x3a), (0x3b, 0x3b), (0x3c, 0x3c), (0x3d, 0x3d), (0x3e, 0x3e), (0x3f, 0x3f),
  (0x40, 0x40), (0x5b, 0x5b), (0x5d, 0x5d), (0x5c, 0x5c), (0x5e, 0x5e), (0x5f, 0x5f), (0x60, 0x60),
  (0x7b, 0x7b), (0x7c, 0x7c), (0x7d, 0x7d), (0x7e, 0x7e), (0xa1, 0xa1), (0xa7, 0xa7), (0xab, 0xab),
  (0xb6, 0xb6), (0xb7, 0xb7), (0xbb, 0xbb), (0xbf, 0xbf), (0x37e, 0x37e), (0x387, 0x387),
  (0x55a, 0x55f), (0x589, 0x589), (0x58a, 0x58a), (0x5be, 0x5be), (0x5c0, 0x5c0), (0x5c3, 0x5c3),
  (0x5c6, 0x5c6), (0x5f3, 0x5f3), (0x5f4, 0x5f4), (0x609, 0x609), (0x60a, 0x60a), (0x60c, 0x60c),
  (0x60d, 0x60d), (0x61b, 0x61b), (0x61e, 0x61e), (0x61f, 0x61f), (0x66a, 0x66d), (0x6d4, 0x6d4),
  (0x700, 0x70d), (0x7f7, 0x7f9), (0x830, 0x83e), (0x85e, 0x85e), (0x964, 0x964), (0x965, 0x965),
  (0x970, 0x970), (0xaf0, 0xaf0), (0xdf4, 0xdf4), (0xe4f, 0xe4f), (0xe5a, 0xe5a), (0xe5b, 0xe5b),
  (0xf04, 0xf12), (0xf14, 0xf14), (0xf3a, 0xf3d), (0xf85, 0xf85), (0xfd0, 0xfd4), (0xfd9, 0xfd9),
  (0xfda, 0xfda), (0x104a, 0x104f), (0x10fb, 0x10fb), (0x1360, 0x1368), (0x1400, 0x1400),
  (0x166d, 0x166d), (0x166e, 0x166e), (0x169b, 0x169b), (0x169c, 0x169c), (0x16eb, 0x16ed),
  (0x1735, 0x1735), (0x1736, 0x1736), (0x17d4, 0x17d6), (0x17d8, 0x17da), (0x1800, 0x180a),
  (0x1944, 0x1944), (0x1945, 0x1945), (0x1a1e, 0x1a1e), (0x1a1f, 0x1a1f), (0x1aa0, 0x1aa6),
  (0x1aa8, 0x1aad), (0x1b5a, 0x1b60), (0x1bfc, 0x1bff), (0x1c3b, 0x1c3f), (0x1c7e, 0x1c7e),
  (0x1c7f, 0x1c7f), (0x1cc0, 0x1cc7), (0x1cd3, 0x1cd3), (0x2010, 0x2027), (0x2030, 0x2043),
  (0x2045, 0x2051), (0x2053, 0x205e), (0x207d, 0x207d), (0x207e, 0x207e), (0x208d, 0x208d),
  (0x208e, 0x208e), (0x2308, 0x230b), (0x2329, 0x2329), (0x232a, 0x232a), (0x2768, 0x2775),
  (0x27c5, 0x27c5), (0x27c6, 0x27c6), (0x27e6, 0x27ef), (0x2983, 0x2998), (0x29d8, 0x29db),
  (0x29fc, 0x29fc), (0x29fd, 0x29fd), (0x2cf9, 0x2cfc), (0x2cfe, 0x2cfe), (0x2cff, 0x2cff),
  (0x2d70, 0x2d70), (0x2e00, 0x2e2e), (0x2e30, 0x2e42), (0x3001, 0x3003), (0x3008, 0x3011),
  (0x3014, 0x301f), (0x3030, 0x3030), (0x303d, 0x303d), (0x30a0, 0x30a0), (0x30fb, 0x30fb),
  (0xa4fe, 0xa4fe), (0xa4ff, 0xa4ff), (0xa60d, 0xa60f), (0xa673, 0xa673), (0xa67e, 0xa67e),
  (0xa6f2, 0xa6f7), (0xa874, 0xa877), (0xa8ce, 0xa8ce), (0xa8cf, 0xa8cf), (0xa8f8, 0xa8fa),
  (0xa8fc, 0xa8fc), (0xa92e, 0xa92e), (0xa92f, 0xa92f)]

def punctRanges1 : List (Nat × Nat) := [
  (0xa95f, 0xa95f), (0xa9c1, 0xa9cd), (0xa9de, 0xa9de), (0xa9df, 0xa9df), (0xaa5c, 0xaa5f),
  (0xaade, 0xaade), (0xaadf, 0xaadf), (0xaaf0, 0xaaf0), (0xaaf1, 0xaaf1), (0xabeb, 0xabeb),
  (0xfd3e, 0xfd3e), (0xfd3f, 0xfd3f), (0xfe10, 0xfe19), (0xfe30, 0xfe52), (0xfe54, 0xfe61),
  (0xfe63, 0xfe63), (0xfe68, 0xfe68), (0xfe6a, 0xfe6a), (0xfe6b, 0xfe6b), (0xff01, 0xff03),
  (0xff05, 0xff0a), (0xff0c, 0xff0f), (0xff1a, 0xff1a), (0xff1b, 0xff1b), (0xff1f, 0xff1f),
  (0xff20, 0xff20), (0xff3b, 0xff3d), (0xff3f, 0xff3f), (0xff5b, 0xff5b), (0xff5d, 0xff5d),
  (0xff5f, 0xff65)]

def punctRanges : List (Nat × Nat) :=
  punctRanges0 ++
  punctRanges1

end CM
