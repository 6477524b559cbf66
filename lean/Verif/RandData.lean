/-!
# Certificates for the period of the random generators (generated data)

For each prime divisor `p` of `2^w - 1`, the inverse of the matrix `F^((2^w-1)/p) + I` over GF(2), where `F` is the
generator step, as the list of images of the unit vectors.  Nothing here is trusted: `RandProps` checks, in the
    kernel, that they are
inverses.
-/
namespace Verif.Rand

def inv64 : List (Nat × List Nat) := [
  (3, [0x2fb5c921735fe786, 0x63d778948e9b2621, 0xc3625bed9f89d66f, 0xd011741ab6acc21, 0x944251e558a04f96,
    0x9f16e94e7acaf4f9, 0xe700abeb5ff58698, 0xf66cbd80eefd8c96, 0xc0e895460f92c86c, 0x69ff5a2609367076,
    0xa1e771ffd5200098, 0xc44345be2e0610a0, 0x2e77dc39737ad350, 0xa6b093752ce3d04a, 0xaf1c0410bf24de16,
    0xdd7510a38faae2ec, 0x13c6f19881a965ec, 0x7360e96f3b690982, 0xa02431ed8c91eb25, 0x8f86941b53cc7fc3,
    0x27aeabc3a9ddda60, 0x78645682dff3a660, 0x93a05a7b0a7350fa, 0x7bfc56491f49b36b, 0x6af50a06a928a756,
    0xfbc06ae2eca34edc, 0xc6099afc1494a636, 0xbffb5f534c1fada3, 0xc269486577656435, 0x43e6f4413d039507,
    0x4cd4bc844be53286, 0x578ea118ff9ed282, 0x974694f3f03aa94, 0x79bb410b41fa8a0f, 0x513c8faabb701d40,
    0xd17731822f753fd3, 0x7d18d7e9c44d9d69, 0xfcf1ee9c91d78fc6, 0x99a0aee8bce81694, 0xdcadbe3ff9edcc5e,
    0xef0947a3fe33dc91, 0x54eb84d736772953, 0xc0ea514ea0811dd3, 0x6a243a96b0ee8a22, 0xf742de0cacbb393d,
    0xac5efa20ebd546ce, 0xce41c6fe32d7eff9, 0x6a84c31fbbf67854, 0xb03091b5d9948f37, 0x4cd53202f9b0b9c8,
    0x48258963b6331293, 0xfc49a7566530186c, 0x8dc0ced5d5ec4156, 0xae01d183e2433e4e, 0x4e90b2da1dda09c8,
    0x89ad2b8f797b4869, 0x39d95c7624cd1886, 0xeb41423473269650, 0xf788080ba3ff8f6b, 0xe51442e606480515,
    0xe898fdd72df5030a, 0x4431c5db7b65dd70, 0xbc7607912b8659f7, 0x2d43f84a57f2300b]),
  (5, [0x32310e294b3874c1, 0x6abdb93767812d86, 0xe1036e686013b226, 0x90db1e45ce061aac, 0x48c5216c6a07e2e1,
    0x6f75b63c401491c, 0xc7ff2b32c6e48f8b, 0x237b1c41abd0f9d4, 0x5e2fcf5b2309a56d, 0x1f70c563f45bcb87,
    0xc7f2c30b726737e8, 0xd7624f687730b957, 0x61be1974e778b496, 0x2436f22c7bee0bd2, 0xd6bd58ba03bb58b5,
    0x6f572ebb74f7eacb, 0x8251a6608116063, 0x22032b45d498962a, 0xadfcdf5422a3416c, 0x7670f0251500f147,
    0xa9bb554fb91dcd96, 0xaeaaf3e7ee7ddbde, 0x714c4fb60d7b3c36, 0x999ecf12a8b2b3a5, 0x538c112987246f9b,
    0x73507a9642ba2563, 0xd9ef4566d129f0e9, 0x8f32357217b4d2ed, 0x82e0017c09090dd1, 0x9dfe60b9cfd0e530,
    0xbc3f0b272a539a34, 0xc822cf55bc332cd7, 0xe62af843c2cc1b28, 0x8857bee7edbdee96, 0xfc3e22498d50d212,
    0x10a610450add0390, 0x867edcda7756638b, 0xac75c1dabda6f3a8, 0xe280a328d7839fff, 0xe2a3115564472e18,
    0xcf882004d73c2e09, 0x8dd91698653012fc, 0xab87cb2e3eee73c2, 0x7c98c26596bb4206, 0xb58c506da0f2e0d5,
    0x49aad2dc67485c8f, 0x27efe79e1fa610c1, 0xc52b6a5b87231f8f, 0x1c7c0ca753e69046, 0xaa5b14f9d91004c3,
    0xab9a586e4895c4f0, 0x232f569d2047f5f2, 0x6701505971fb45bf, 0x182615201745ef06, 0x3763d218d15e7f11,
    0x644199e2b3e5847d, 0xc65a992cac75d78b, 0x2fa68a4491b77fee, 0xc8e7033ceb65fc08, 0x8fd1c7592c8fed6c,
    0xb52c50d8488d3107, 0x4a828911d8818d1, 0x9b4ae3bf6e6f2684, 0xbd94a4b1203315c8]),
  (17, [0x30f00af399a13526, 0x547ea1a90e1d0ae5, 0xb39119de59624d5e, 0xe48684f57d167c9c, 0xc2dd7c691c48b35,
    0x591fa08ccbc4a799, 0x20c3e2c3cb247acb, 0x2599f28841cfe94e, 0xb3101196ba94f03f, 0xc2228b656c5866be,
    0xc85cc424639753ee, 0xe5b8808ca134e411, 0x7dc02a1cee27cbe5, 0x85cbf69bd98fa0b, 0xe5d4c8dd5c2928aa,
    0xcb8424596f11654d, 0x535ebd7ef3ae0915, 0x523d7209216634de, 0x67ca7a0b7949c8e1, 0xc1f9d9b962765b7,
    0x1354a930d70515e2, 0xda069955b5473807, 0x43181331edfa11ba, 0x8d7a92a2f28cf3c4, 0xb2adc826befce30b,
    0xe66e3e4416ff0fb8, 0x862c5c263acf537f, 0xaf723c5172214c24, 0x6e146a816ac3235a, 0x844a802aa1c297b4,
    0x905052e405ee8fa, 0xf7e1ea72c403d4ed, 0x77cf6ef9ea6724e6, 0xf8f2d63b9d4172c, 0xbe21cdedb4cfadbd,
    0x635f368cccaeaee8, 0xcb7f2d1e4636a8b2, 0x225afeca540302a3, 0x737cfe86f23af8ac, 0x727ea1e06e3db59f,
    0xe0e947c1ec74384d, 0xf46f316c2ac31dcc, 0xc31ece81047873be, 0xd1e4e211f805fa1e, 0x9debb31b0abf3120,
    0xf1f81a0bf91b34c, 0x2dc8b13e3b442f10, 0x6afeb217938ba2e7, 0x215a2fae5a526d6c, 0x20ac070ee7dbf8aa,
    0x5c0949f758fff66e, 0x9f3eb0358e00fab3, 0x10cb73b056604a5b, 0x1f34f304fb64d2f9, 0x430a28f179648dcd,
    0x93c72e84bbcf7545, 0x93672a576fcd544d, 0x359778c765a5a61b, 0xe2c9aa2b1391171, 0x8a3b5fb2cdc7e191,
    0x35f7e984f02d7da2, 0x743988f646294d16, 0x576d7e8efc224b37, 0x174b15c22ab27a28]),
  (257, [0x5442c8c2a5df2b7d, 0x902c1f91818e11bc, 0x1d06b5dc8f6bdb14, 0xff7a65e4c0d02899, 0x3ab5840cf5e56ae3,
    0xb5bd0c0ae5ea05c5, 0x1b3d72c6aaff3ae0, 0x3767e463eeafd165, 0xc4eae5aca4c8b67, 0x918973f1e08f4d1f,
    0x5f37b7c74a6a2b7f, 0x1e2fb793955001da, 0x29c36881d14bf9d, 0xff91a21b3d2ae266, 0xacbe6899bc63fe62,
    0xf00e4aa0691b5b19, 0x930b5ebe4c0a8efc, 0x26f7942df18174cb, 0x28c058702f9c7c19, 0x5519241842c3dbdd,
    0xc8c14b49a8417f53, 0xec3679fd9422492f, 0x1dce12a32e74c865, 0x6e58bced266efcec, 0xa4aa5e69faddfe40,
    0xdc56aed090a69d94, 0xa0f82ed5599e30b9, 0x3be65efcfe53a050, 0x151ed073a0d75d8b, 0xb46f4affde2be2f9,
    0x4b3bb682f5e59ba4, 0x19b91cf6f9b28264, 0x8eef58021562e26b, 0x7b62767e9366c3c6, 0xfad1de748058e430,
    0x7427603ee7f71934, 0x405043bad366e034, 0x41c8d2d93574fe06, 0x2ccd4db3481ede60, 0x8e5f2ef6a182486a,
    0xc5033631e4b2d4e, 0x2824ff8fd2943f25, 0x5896467db1730457, 0x40690594a3dd8a9e, 0x3ec1fa334d7d2285,
    0xfee4c97ebe5d9f3d, 0x3d3f5894408b7030, 0x6b9662468f4a62b9, 0xee17628e8bad896c, 0x999f8f3007f3023a,
    0xd7dd7e86c50559e9, 0x2bb4b65f500bae96, 0xb9fb3b247c17c59a, 0x1a0b73a50bdc0420, 0xbe67993029d8b300,
    0x62f990fa32f1457c, 0xd99a54c78393414, 0xf41095e1a0867db, 0x357ac294e7559a7e, 0xd5d00b166bf0b64c,
    0x8a9a0f1c54271bf2, 0x3676fcd08c9a8915, 0xe6f668805e637d44, 0xbebdaabd0970bb7d]),
  (641, [0x2bc975c3ff8efc91, 0xdd13f2664b72901, 0x85070c9de45c0752, 0x190bc62ae3da6586, 0xd802d3525c59ffd6,
    0x675246aba47927cd, 0x85537280afe51b2f, 0xf732ea454f682898, 0xc08f32f592cceb9c, 0xc65237f7aa7c5409,
    0x10d50f561e0e8e0, 0x474fe7e8a05b589a, 0xbb7af65d5b00c1a8, 0x2d66e2becf9c9e5c, 0xbada5d579ee4a9de,
    0xebb4482ddb4c2486, 0xc11f16cd088c063b, 0xf864f13ee61d006a, 0x468334aabbdcfd7d, 0x3dd4b45eb0ef92d1,
    0xa18a23c930116d44, 0x3207c658af319383, 0x5ed42001a17c4ff4, 0x8f112b263dd433f9, 0x364d4481750d06ce,
    0xa945de8ff1aa9364, 0x6b2d7fdbcbee555c, 0xf19a213df8dbb450, 0x20d2472cc70ed07f, 0x7bd874c098cca3b2,
    0x69035c12e568bfa, 0xb70559b2c2cc0e28, 0xb08b4c3d2951cbb4, 0x882451e49bbe06e2, 0x5e94828c56996934,
    0x80524fc57b9f4c24, 0xebebe1bed430642c, 0x67f7e6fea38c5537, 0x807991a59b745ef7, 0xb2391f8da92fdd,
    0xcbd3c4fda418bf5c, 0xe4c35ea31f8abe1a, 0x70999de2a545bab7, 0x18ad6811bbe11237, 0xf366c59cf61acfc6,
    0x5d68394f76fffc4f, 0x1bb6bdd220da68d2, 0x671d2fe5ead80ba0, 0x31e6692a77939b40, 0x292d303cca85fc7b,
    0xc179809a14248951, 0x2f35c19ada11e4e8, 0xb054d4eab355fa4f, 0xe893dda7470ef47d, 0x987a3e96b652c2b7,
    0x220c2abe1aed3a0a, 0x5bb4977118ec1988, 0xc87d535b8e6713ca, 0x653089c02c835c17, 0x5703db06bcf3db0d,
    0x75c7382dae80ef4, 0xd8e3e52ae2a062a9, 0x67ecd9aa84e51ea8, 0xa7fba0c340b98175]),
  (65537, [0xd713b2a9474a09cd, 0x8e2cbe7795b3771d, 0x288680018eb914c1, 0x9b05f6633563d950, 0x72806b2e59601849,
    0xc6a7b43a510ad0ae, 0xddbf17e33923125d, 0x9354f15b7cc07bac, 0x2ec95678b0bd0432, 0x19fe59ad1936331,
    0x46392cb8937fb59f, 0x8366523195634f9b, 0x95fa13099949ab9a, 0xf9789b4d983d186d, 0x8ed5e36e3e297d08,
    0xdefa97d5269f28d, 0x87c8d77442b40db1, 0xdf74b4fbf5ea66b2, 0xd1b4ae2cffd0d9, 0x44c564e9a49aa730,
    0x66e8d931d41985e7, 0x577a7a2118449098, 0x9caa03bff811fc80, 0x88296c9c5eb9e76d, 0xc081f456d40fddf1,
    0x24d6cddf883b99b6, 0x78ed768d6b4047b3, 0x40c7920947b90b9, 0xf683af2a5cdcc571, 0x7956a31fc655844f,
    0x192cc390e116f1df, 0x560391c0d8ce282b, 0xee7c6e0d635873ce, 0x61397773612c7cf, 0x5a4494483a9d708a,
    0x7a7cd8ece2a0761b, 0xa8fb27c9ecd839f8, 0xe4a6ac09f88a2bab, 0xfdf1c47b8291428e, 0xe7a20fd15b1a55e,
    0x1559db219b659032, 0x5fe637900f88a815, 0x2818759871146c18, 0x14380d51bb6b9116, 0x1b2bd21ba347db8f,
    0x8d3c054432798676, 0x813b39e57231be8d, 0x4bea6d5274067fd1, 0x685e90df3e4bac3a, 0x38e15d282227a7a2,
    0x696faacb5d6ea145, 0x61d487e5fdb2ad94, 0xdc0733174c522430, 0x81695141ff4585f4, 0x3de157858465affc,
    0x471694dbf63d5287, 0x78c02d5c52e1dce3, 0xa387e43426e76f5c, 0x85ba0369cc57720f, 0xce79b17aaeb4117b,
    0xdd083c1f5ca3411f, 0xc83bd942958dea87, 0x3fab9ef473b5301d, 0x3da0fd0b06775ebf]),
  (6700417, [0x5ede37f6f11efa54, 0xe76fbcfecd368c65, 0x42e9a748153f6bbc, 0x8ab919972c193242, 0x9148f76512a33c0d,
    0xc616b675e35b052a, 0xf63770972a3d598b, 0x4940a940a4b36f6b, 0xb0e02c16ab4cb671, 0xe9bd394e40ed5cb2,
    0x72c5c0d4b73db74c, 0x965d90195b5927c7, 0xa684943d8072c52c, 0x211d894f7ce3af09, 0x84e6fc05d62d9f8c,
    0xf8cb5f4291fb1414, 0xfc701fce205cc606, 0xcc35177028bf2e21, 0x19fb8657ce4dfbe9, 0x97169a3e9a0e2ed4,
    0xe122a17554b236e7, 0x53811554fbe76f0, 0xdecef0957027119e, 0x2f13c87eefdb9c7b, 0x2a7703846f8acd73,
    0x2b190e3ab18829b0, 0xa0bc2587963040b, 0xfa196500d4411dfc, 0xea0dc0980d28f1d4, 0x962957e3ae6eb94c,
    0xb7bd72821d1ca804, 0x51010be068001d4b, 0x5273502c69f8ae4d, 0xdee8328398ba2f63, 0x72e6202dbd21669d,
    0xa193edcffec7e598, 0x6901c5b1375575be, 0xee8fc4dc55465d9c, 0x54ebd7a4c40d6b22, 0x948ece1cc20559f6,
    0x4802c41eef23034e, 0x5ed841416fe9ddb4, 0x416a3a294272edd5, 0x15596e42ac31202c, 0xbf6ae61be4c2c3a5,
    0x3f4d348fbdbcc4ca, 0xedb8ac93499779b9, 0x766bacb5276c5b87, 0x970be659189bf5bf, 0xcad5fa3cf2f5533,
    0x981ef1717c385e13, 0x5422cc20fe022010, 0xc91412e02b6bab0d, 0x432d2cbad30bde89, 0x20cd7a767a61fe78,
    0x3a072ff36cbe7b4a, 0x281d6efd5ba1f58, 0x84ec8c0041c3543c, 0xd9ccb55e84b887d9, 0xcdccdf2f69b60b1b,
    0x316648c2e047f605, 0x3991a9cadfa6f331, 0xf7df4d40251ab14, 0xb87b94b2e4e8920d])]

def inv32 : List (Nat × List Nat) := [
  (3, [0xc6d40f11, 0xe8d7523f, 0x1459d7c3, 0xd043a6ec, 0x4cc0bb1c, 0xa3c5fcd8, 0x802b7b0e, 0x4088aa93, 0x9ba4c15e,
    0xd40b2665, 0xd8cca28d, 0xaaffe371, 0x1875bd52, 0x4ba873e3, 0xf3b56fc3, 0x92f6da9, 0x5c53c2dd, 0x58e0af2f,
    0x8f4e1de0, 0xcbcf9b65, 0xa76ba20a, 0x20e445ac, 0x8afb0ef2, 0xb3bc693, 0xb3d92781, 0x5af73dc7, 0x1a4c79d1,
    0x7e7007c7, 0x2f352d6b, 0x9924fef5, 0x9e44601a, 0x6464e5d]),
  (5, [0xb5109e95, 0xbda9a905, 0x6380d566, 0x8bc0aa6b, 0x161beea9, 0xe887c474, 0x524e22b2, 0xfaf1008c, 0xb0ffc9ae,
    0x8bfd4542, 0x6e8d696e, 0x63281eb1, 0x6db414bc, 0x495f7ab3, 0xfab352b7, 0x87ea11f1, 0xa49c60c9, 0x7fa9e4af,
    0x6a47f326, 0x8cf43c61, 0x4232d3eb, 0xd09e2381, 0xadc9872b, 0x128a17fb, 0x71fecbf6, 0x68b5f662, 0xc457bf5c,
    0x137ab42c, 0x7d328c19, 0x5e3076b0, 0x885733e1, 0xf1215e6b]),
  (17, [0x7c058b46, 0xf444fd12, 0xf85f6c88, 0xf9f0a59, 0xff1cf006, 0xf97378b9, 0x8c68ca31, 0xd664b8ba, 0xd5ce5705,
    0x9719a193, 0x64d4ae4e, 0xda3c0542, 0xb7b307fc, 0x86675fa3, 0xc3fd87c, 0x9992b98e, 0xe7dc1520, 0xec5e677a,
    0x63d93fac, 0x63247b9e, 0x1babc633, 0x9d2b32f, 0x43b1d498, 0xdcb4bc93, 0x2bb1d4b9, 0xcf25fc4a, 0xc88f00ce,
    0x8369eb46, 0xa519aae0, 0x7f9f1295, 0xf9b0f370, 0x69e53d04]),
  (257, [0x73a95da9, 0x27da4677, 0x2439ef5c, 0xdba7344c, 0x434ba086, 0x26ac1192, 0xc4e26453, 0xe0f5858, 0xe4331532,
    0x9f708aa0, 0xc24c3b0e, 0x746567d8, 0xba201c5e, 0x30200983, 0x7bacff4f, 0xa0d7d5, 0xb010b5c3, 0xdf31fcb8,
    0x3eb320ff, 0x15127336, 0x90875c4, 0x177f6506, 0x8a3b84ee, 0xe35503a, 0xac38b3e, 0xc7326126, 0x4b608ae9,
    0xc0baa06f, 0x9cc855f2, 0xb1c66454, 0xfaeb0c9a, 0xb2318611]),
  (65537, [0x13c5c62e, 0x944f33ad, 0x4815c2e0, 0x28b3e54b, 0x320e984d, 0x53eceb8e, 0xef31f861, 0xf41f5ec0, 0x3d9bc2ca,
    0x89320255, 0x2de22fbe, 0xf97275d2, 0x9ec19df7, 0x9ff36897, 0xf6892d38, 0xafde6203, 0x5e1b94a5, 0xa7e5bdac,
    0x14d06359, 0xb8981a44, 0xeaaa1c67, 0x9c7cf4a2, 0x9d1e5b1a, 0xc94b865, 0xc55ab448, 0x72718d92, 0x78be61ac,
    0x7acbab8e, 0xf245d55f, 0x46283efe, 0xeba745dc, 0x22f98808])]

end Verif.Rand
