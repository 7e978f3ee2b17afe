/-!
Hints for the proof that the 2039 pairs are self-equivalences of the S-box: powers of two generators `g` (order 255)
and `f` (order 8) in the packing of `Model.SE_A`, and for each pair its exponents `(e, i)`: the pair is `g^e . f^i`.
Nothing is assumed about this data; it is checked in `Verif.Lemmas.SeSelfEq`.
-/
set_option autoImplicit false
set_option maxRecDepth 20000

namespace Verif

def seGA : List Nat := [
  0x804020100804020100, 0x8d15ff2cb02de3f113, 0xe1f0c4625e9375babf, 0x964bb50947b31a0d6b, 0x6fb782412a4c7f6c7e,
  0x65616ee4ac88497704, 0x361b944aef3d54f9e7, 0x1d8e8c46e8bf140a95, 0x40f310dbd7d10153c2, 0x15592c168b45f12bb9,
  0xf07862e22fc9ba5dbd, 0x4b76098470d90d5549, 0xb70841a0c6f56ce563, 0x61b0e472569777bbca, 0x1b5e4a25f79ef9fc0d,
  0x8e47462374df0ad6b4, 0xf32adbedeb3b537a1a, 0x59ac160bc5712b95ec, 0x78efe2a244375d7de4, 0x76e8849138ec55aa50,
  0x08d7a05063fae52159, 0xb08b7239f818bb0e0a, 0x5e2f2592fb9cfc7e85, 0x47702342e93cd6b8ab, 0x2ac6edf6264e7aeef6,
  0xac560b85316b95191b, 0xeff7a25122487d6d0b, 0xe87491c81ca5aa8662, 0xd7eb5028b1ae21432d, 0x8bc5394faf0c0e078b,
  0x2f44929afd9d7e3fc9, 0x703842f227cdb85cc8, 0xc663f6a8c0f4eea42f, 0x56f885c29866195fa9, 0xf7fb517b11246db6d4,
  0x74e9c864ddd2869006, 0xeb2628c7d85743a1c5, 0xc5314fa70406078388, 0x44229a4d2dce3f9f0c, 0x381cf27993e65c2e53,
  0x63b1a887b3a9a4819c, 0xf8afc2b24c335f7c91, 0xfbfd7bbd88c1b65b36, 0xe92764323d69909b93, 0x26c0c730bfaba10314,
  0x3198a7d3d1d083128e, 0x22114da645b49fcfda, 0x1cdd79bcc9732e1764, 0xb1d887c3d9d48113fb, 0xaf04b28af5997c3ebc,
  0xfd2dbdde97e05badae, 0x279332ca9e679b1ee5, 0xc0b330cbdfd50352b7, 0x984cd33a3b6812dadf, 0x1188a680715acfe777,
  0xdd3dbc8d376a175857, 0xd8bfc3e1ecb9138968, 0x04d18a96fa1f3eccbb, 0x2d45de6f18a3ad059f, 0x93c9ca659c601edc54,
  0xb3d9cb363cea5229ad, 0x4cf53a1d4e34dabe20, 0x889780406bfee7202c, 0x3d9e8d15483558ff6c, 0xbfdfe1f0a50f89c44f,
  0xd13b964bae8fccb5b5, 0x45716fb70c020582fd, 0xc93765619de3dc6e6a, 0xd9ec361bcd75299499, 0xf5fa1d8ef41abe8c82,
  0x971840f3667f20109a, 0x9e9c15592449ff2c47, 0xdf3cf078d254c46201, 0x3b4e4b765714b509f4, 0x716bb7080601824139,
  0x374861b0cef16ee416, 0xeca51b5ee6ba944aac, 0xfaae8e47a90d8c46c7, 0x180cf32a336c10dbaa, 0x9c9d59acc1772c1611,
  0x3ccd78ef69f962e29d, 0x4ef476e8ab0a098476, 0x6b6608d7d05341a0b0, 0x4824b08bb42be472ee, 0xa5d25e2f735d4a25c6,
  0xae574770d45546234d, 0x0c062ac699e5dbed97, 0x9dceac56e0bb160be0, 0xcde6eff767fce2a2a4, 0xf4a9e874d5d6849173,
  0x6633d7eb687aa050a3, 0x24c18bc55a95723942, 0xd2692f446a7d259212, 0x57ab7038b9aa234258, 0x06d0c6631f21edf6ed,
  0xceb456f8a30e0b8503, 0xe673f7fb607ea251d6, 0xa9d474e9eab891c824, 0x3399eb2634ee5028d8, 0xc1e0c531fe19394f46,
  0x69674422356d929ae6, 0xabd5381c0f8642f272, 0xd06863b18f43f6a844, 0xb45af8af020785c2c4, 0x736afbfde33f517b6f,
  0xd4b9e927755cc8648a, 0x991f26c01aa428c72e, 0xe0a331987f5f4fa74e, 0x6760221149b69a4d52, 0xd5ea1cdd5490f2797b,
  0x6834b1d814a1a88717, 0x5afeaf040183c2b24b, 0x6a35fd2df19f7bbd41, 0xb90f2793ba2e6432d7, 0x1f8fc0b30d81c730c3,
  0xa302984c6c7ca7d35e, 0x60e31188775b4da63b, 0xea75dd3df99b79bc34, 0x341ad8bf0a0387c3b1, 0xfe7f04d15312b28a09,
  0x35492d452bcfbdde40, 0x0f5493c95d1732ca30, 0x8f14b3d9551330cb45, 0x02014cf5e53ed33a23, 0xe3f18897bbada680e9,
  0x75ba3d9efc1ebc8df7, 0x1a0dbfdfd652c3e1fc, 0x7f6cd13b7ada8a968d, 0x4977457195e7de6f1f, 0x54f9c9377d58ca65ff,
  0x140ad9ecaa89cb3648, 0x0153f5fa21cc3a1d84, 0xf12b97180e0580404c, 0xba5d9e9c7edc8d1570, 0x0d55df3cb829e1f066,
  0x6ce53b4eeebe964bd9, 0x77bb716b19206fb7a1, 0xf9fc37486dff656160, 0x0ad6eca586c4361b0f, 0x537afaae43b51d8e96,
  0x2b95180c078240f307, 0x5d7d9c9d3f6e155922, 0x55aa3ccd5c94f0780e, 0xe5214ef4a48c4b7671, 0xbb0e6b665f10b70881,
  0xfc7e4824b62c61b05f, 0xd6b8a5d290621b5edc, 0x7aeeae57a1098e47b2, 0x95190c068341f32acc, 0x7d6d9dce9fe459acdb,
  0xaa86cde62e4a78ef83, 0x2143f4a9814676e87d, 0x0e0766337cdb08d7c1, 0x7e3f24c15b16b08b7c, 0xb85cd2699be25e2f26,
  0xeea457ab03844770fa, 0x195f06d012a02ac65b, 0x6db6ceb4cf72ac5628, 0x8690e6731725eff798, 0x43a1a9d41323e87465,
  0x078333993eedd7eb1c, 0x3f9fc1e0ad0b8bc53a, 0x5c2e69671ea22f44d3, 0xa481abd55291703837, 0x5f7cd068da50c66374,
  0xb65bb45ae73956f892, 0x909b736a5892f7fbf3, 0xa103d4b9894274e908, 0x8312991fccf6eb26a7, 0x9fcfe0a30585c531b6,
  0x2e176760dc51442238, 0x8113d5ea29c8381cf1, 0x7c3e6834be2863b12a, 0x5bad5afe204ff8afba, 0x9b1e6a35ff9afbfd78,
  0x0352b90fc4f2e927d2, 0x12da1f8fb5a826c0d0, 0xcfe7a30282c23198f2, 0x175860e36e7b2211ef, 0x1389ea7594641cdd21,
  0x3ecc341a8cc7b1d8cb, 0xad05fe7f10a7af04ea, 0x1edc35492c4dfd2d32, 0x52290f546279279367, 0xdabe8f140987c0b33e,
  0xe720020141b2984c27, 0x58ffe3f1e4bd11881d, 0x89c475ba4a32dd3ddd, 0xccb51a0d4630d8bf55, 0x05827f6cdbd304d14a,
  0xdc6e497716a62d45a6, 0x299454f9e2bc93c951, 0xbe8c140a84c3b3d9be, 0x20100153a08a4cf58c, 0xff2cf12b72de8897f8,
  0xc462ba5d25ca3d9e79, 0xb5090d5523cbbfdf35, 0x82416ce5ed3ad13b56, 0x6ee477bb0b8045718f, 0x944af9fca28dc9373d,
  0x8c460ad691e1d9ece2, 0x10db537a5096f5fa86, 0x2c162b95396f97186e, 0x62e25d7d92659e9c6d, 0x098455aa4236df3ca8,
  0x41a0e521f61d3b4e33, 0xe472bb0e8540716b80, 0x4a25fc7e51153748b8, 0x4623d6b8c8f0eca55a, 0xdbed7aee284bfaaecf,
  0x160b95194fb7180c1e, 0xe2a27d6d9a619c9d18, 0x8491aa86f21b3ccdce, 0xa0502143a88e4ef4f9, 0x72390e07c2f36b669e,
  0x25927e3f7b594824b3, 0x2342b85c6478a5d22b, 0xedf6eea4c776ae575d, 0x0b85195fa7080c06fe, 0xa2516db64db09dceaf,
  0x91c88690795ecde602, 0x502843a18747f4a931, 0x394f0783b22a6633a2, 0x929a3f9fbdac24c1a5, 0x42f25c2e32efd26994,
  0xf6a8a48130e857ab25, 0x85c25f7cd3d706d03f, 0x517bb65ba68bceb4c0, 0xc864909bbc2fe6739b, 0x28c7a103c370a9d4a0,
  0x4fa783128ac6339987, 0x9a4d9fcfde56c1e089, 0xf2792e17caf76967eb, 0xa8878113cb74abd5d5, 0xc2b27c3e3aebd068e1,
  0x7bbd5bad80c5b45a43, 0x64329b1e8d44736af5, 0xc7300352e138d4b9de, 0xa7d312da9663991f90, 0x4da6cfe76ff8e0a3d1,
  0x79bc175865fb676015, 0x87c3138936e9d5ea69, 0xb28a3ecc1d2668345c, 0xbddead0540315afe19, 0x32ca1edc15226a3529,
  0x30cb5229f01cb90f7f, 0xd33adabe4bb11f8fe3, 0xa680e720b7afa30261, 0xbc8d58ff61fd60e3e8, 0xc3e189c41b27ea7510,
  0x8a96ccb58ec0341a7a, 0xde6f0582f398fe7ff0, 0xca65dc6e59113549cd, 0xcb36299478dd0f543c, 0x3a1dbe8c76d88f1405]

def seGB : List Nat := [
  0x804020100804020100, 0xe505d43c4872ce672c, 0x2115aed24d23140a50, 0xb329c512587d4e86b7, 0xa4fbf5f271b0f1591a,
  0x43e91dc68a0d6f1605, 0xac1b615c635d42801e, 0x0bddb6037864cbe5f6, 0xe181b1a9a5a3012174, 0x53826a1e249867b3d1,
  0x902b57c8a6910aa4d4, 0xd935e2a88dbe8643e6, 0xf3fdfa79b8f959ac40, 0xa1558ec24527160b83, 0x562c112e100f80e148,
  0x85ee5b203c93e55399, 0xf0c0d8d4d270219061, 0x08e094ae12edb3d9d7, 0x4834abc5f269a4f320, 0x4d9ad0f5c6fe43a1b9,
  0x585fdc1d5cfcac56f4, 0x71aae66103320b8573, 0x8ab788b6a926e1f0e4, 0x63d6adb11e68530847, 0x78606c6ac8999048b6,
  0xa5d1eb57a8f6d94ddb, 0x24bbd5e279b4f358c9, 0xa6ecc9fac27fa171fa, 0x8d0ecf8e2e7e568a9d, 0xb8f473112019856392,
  0x457a445bd413f078bd, 0x106b77d8ae9508a507, 0x3c303694c5cc482419, 0xd2e854abf5da4da6c3, 0x127c4bd01d5a588de7,
  0xf2d7e4dc61bf71b881, 0xc60746e6b69e8a454f, 0x5cdbb988b12d6310ac, 0x033d22ad6a89783cf2, 0xa9b51a6c57caa5d287,
  0x1e18baebe2662412bb, 0xc8748bd5fa6da6f2f3, 0xa89f04c98e8c8dc646, 0x794a72cf11dfb85c77, 0xc28323735b4f450317,
  0x2e4c7d44d89610a92d, 0x203fb07794653c1e91, 0xd47b0d36abc4d2c87b, 0xae0c5d54d09212a8fe, 0xc53a644bdc17f2796e,
  0xf56ea3e4e6e7c6c2f8, 0x1d25984688ef5c2e9a, 0x61c191b9ada70320a7, 0xb687be226ceaa9d42e, 0xb13ef91aebb21eae57,
  0x6a1c27bad5c3c8c582, 0x57060f8bc949a8f589, 0xe2bc9304cf2a791d55, 0xfa3770727352c26185, 0x8e33ed2344f72eb6bc,
  0x1141697d77d320b1c6, 0x5b62feb03675d46ad5, 0xd81ffc0d54f8ae5727, 0x94af325d4b40c5e28c, 0xaba22664e405f5fa67,
  0xd0ff68a346151d8e23, 0xdc9b9998b92961117f, 0xe638f69122fbb65b0d, 0x88a0b4be1ae9b1d804, 0xad317ff9ba1b6a94df,
  0x6c8f7e278bdd57ab3a, 0xeb76190f0481e2d090, 0xd55113937282fadcba, 0xc95e9570232b8ee632, 0xcfcdcced7d3511888a,
  0x73bdda69b0fd5bad93, 0x44505afe0d55d86c7c, 0x7739bffc5d2c94ebcb, 0x36c79e3264eeabd5fd, 0x543b2d26a3c0d0c9a8,
  0x4b09896898e0dccf01, 0xe42fca999134e673ed, 0x464766f6be9a88449c, 0xb9de6db4f95fad7753, 0x22288c7f27aa6c3671,
  0x1a9cdf7e0fb7eb54e3, 0xbae34f1993d6d54b72, 0x8b9d96137060c9e425, 0x04846595edd1cf468b, 0x7297c4cc69bb73b952,
  0x230292dafeec4422b0, 0x7dce175afc0e771a2f, 0xb014e7bf32f436ba96, 0x0d4eef9e267a548b4e, 0x5df1a72d686b4b046d,
  0x646fea899930e4723e, 0xa342b2caf6e8462363, 0x98cbc366b47cb97dd0, 0x9101496d7fd722b015, 0xbe672a8c7e071a0d2a,
  0xf90a52df19dbba5da4, 0x2786f74f133d8b64e8, 0x0f59d39695b504a3ae, 0x93167565cc187298f5, 0x7080f8c4da742391b2,
  0xede540925a9f7dbe28, 0x69210517bf4ab0f9a3, 0xfeb315e79e830d27dd, 0xfca429ef2d4c5d0f3d, 0x3243fba7893f6493a5,
  0x26ace9eaca7ba37029, 0x680b1bb2660c98ed62, 0x99e1ddc36d3a916911, 0xf65381498c6ebefed9, 0xb490822adf25f9fcce,
  0x7fd92b524fc12732cf, 0x7ef335f796870f260e, 0x19a1fdd3653e9368c2, 0x13565575c41c709926, 0x95852cf89206edf64d,
  0xccf0ee4017bc69b4ab, 0xda08c005e737fe7fc7, 0x5a48e015ef33fc7e14, 0xbf4d3429a7413219eb, 0x9e589afbea62261368,
  0x2d715fe9b21f68950c, 0x898aaa1bc3af99ccc5, 0xca63b7dd49a2f6da13, 0x6678d6812affb45ade, 0x6da56082529b7fbffb,
  0x8c24d12bf7387e9e5c, 0xdfa6bb35d3a0192d5e, 0x4f8decfd7531138959, 0x96b80e55f88f95ca6c, 0x6545f42c4076cc66ff,
  0xc4107aee0551da6daf, 0x923c6bc0155e5a8c34, 0x17d230e029cdbfdf7e, 0xe712e834fbbd9e4fcc, 0xeff27c9ae9502d96c8,
  0xa7c6d75f1b3989653b, 0xea5c07aaddc7cac451, 0xb203dbb7813b669276, 0xc3a93dd682096d17d6, 0x491eb5602b2f8ce7e1,
  0x2ac818d13547dfef75, 0x52a874bbfdde4fa710, 0xf7799fec552896ea18, 0xd3c24a0e2c9c65b202, 0x752e83f4eee3c4c32b,
  0xf8204c7ac09d924965, 0x40d43f6be084172a24, 0x05ae7b303497e7524a, 0x15c50ce89a02eff79e, 0x29f53a7c5fcea7d354,
  0xfb1d6ed7aa14ea7544, 0xe9612507b74eb2f870, 0x1bb6c1dbd6f1c34022, 0xddb1873d606f4905be, 0x816a3eb5d1422a15c1,
  0x82571c18bbcb5229e0, 0x2be20674ec01f7fbb4, 0x35fabc9f0e67d3e9dc, 0xfd8e374af40a751bfc, 0x551133837a86f8dd69,
  0x2c5b414c6b594081cd, 0xeed8623f3016058209, 0xc0941f7be880152bf7, 0xe0abaf0c7ce52935b5, 0x34d0a23ad721fbfd1d,
  0x9adcff6e07b3e95530, 0x5fe69b25dba41b2c8d, 0xaa8838c13d43ddeea6, 0xb7ada087b5ac81c0ef, 0xd66c313e180b82e09b,
  0x60eb8f1c74e12b3466, 0xd1d576069f53359ae2, 0xbbc951bc4a90fd5fb3, 0xeccf5e3783d955aae9, 0x0e73cd334cf32cb76f,
  0xf444bd413fa1eed639, 0x7a7750627b56c06056, 0x6b36391f0c85e0d143, 0x3054c7af3af034bb45, 0xe84b3ba26e089aecb1,
  0x7ce409ff25485f0eee, 0xd7462f9bc14daaf45a, 0x07b947388758b77aaa, 0xdb22dea03e71d66b06, 0x3d1a28311c8a6030d8,
  0xb5ba9c8f0663d1e80f, 0x188be376bc78bb7c03, 0x74049d5137a5ecd7ea, 0x9f72845e33240e07a9, 0x4a2397cd41a6f4dbc0,
  0x837d02bd628d7a3d21, 0x4cb0ce501fb86bb578, 0x3f0d1439af45301838, 0x7b5d4ec7a210e87497, 0x0c64f13bff3c7c9f8f,
  0x3aa36f099bd2d74aa1, 0x6e98422f38120783da, 0x2591cb47a0f2db4c08, 0xc1be01de31c63d3f36, 0x87f967288f5cb57b79,
  0x3e270a9c7603180cf9, 0x1c0f86e351a9743a5b, 0x0693599d5e1e9f6e6b, 0xbc701684cdc84a25ca, 0x37ed8097bda883c13c,
  0x3369e50250794c8764, 0x41fe21ce39c23f3ee5, 0x62fcb314c72e7b1c86, 0x1f32a44e3b200c067a, 0xaf2643f109d43abc3f,
  0xa268ac6f2fae6e37a2, 0xff990b4247c525331c, 0x9bf6e1cbdef5c141f1, 0x38b45301281d876241, 0xa07f90679c613e1f42,
  0x317ed90ae3b61caf84, 0x8f19f3869db106a27d, 0x7613a159846abcff0a, 0x519556169757379b31, 0x5ecc858002e233384c,
  0xcddaf0e5cefa41a06a, 0xbd5a0821148e62310b, 0x50bf48b34e111f8ff0, 0x399e4da4f15baf7680, 0xc72d58436fd8a2518e,
  0x3b8971ac4294ff5e60, 0x09ca8a0bcbab9bcd16, 0x2f6663e101d038bdec, 0x476d785367dca0505d, 0xde8ca5900ae631399f,
  0x28df24d986888fc795, 0x9c4fa6f359ad763b88, 0xe3968da1166c510994, 0x9d65b85680eb5e2f49, 0x84c44585e5d5cd4758,
  0x979210f021c9bddead, 0x02173c08b3cf502833, 0xcee7d248a473399c4b, 0x14ef124d4344c7e35f, 0x4ea7f258ac773b9d98,
  0xf1eac6710b360984a0, 0x6fb25c8ae1542f971b, 0x42c30363534b4702c4, 0xcb49a97890e4deced2, 0x012a1ea5d946281412,
  0x6752c824f3b99c4e1f, 0x0af7a8a6a122e3f137, 0x86d3798d561a9d6fb8, 0x5975c2b885ba844235, 0x16f82e45f08b97cbbf]

def seFA : List Nat := [
  0x804020100804020100, 0x0520865c9466027f00, 0x1986618e3fc2027500, 0xb761d9f5552702e300, 0xc4d992e6659d02de00,
  0x43925bc7bfd4028900, 0x5d5b953e501f02ee00, 0xf195402a7cd3025300]

def seFB : List Nat := [
  0x804020100804020100, 0x0f754a559263cf238f, 0x1d2a286095d367a68d, 0x8717d83f1ac3b0e922, 0x80dabd020896108165,
  0x0f72c2cf92f6552cb9, 0x1da5b56795c960bbed, 0x870550b01acb3f6e11]

def seHints : List (Nat × Nat) := [
  (0, 1), (0, 4), (0, 7), (0, 6), (0, 2), (0, 3), (0, 5), (123, 4), (219, 7), (222, 2), (111, 1), (189, 3), (246, 5), (237, 6), (183, 0), (140, 2),
  (200, 6), (70, 1), (145, 7), (35, 0), (50, 4), (25, 3), (100, 5), (10, 4), (80, 7), (160, 0), (5, 3), (40, 6), (65, 1), (20, 5), (130, 2), (125, 7),
  (215, 3), (235, 2), (95, 5), (175, 4), (245, 1), (250, 0), (190, 6), (4, 2), (32, 5), (1, 0), (128, 7), (2, 1), (8, 3), (16, 4), (64, 6), (55, 6),
  (205, 4), (110, 7), (230, 3), (220, 0), (155, 5), (185, 1), (115, 2), (110, 5), (220, 6), (230, 1), (205, 2), (185, 7), (115, 0), (55, 4), (155, 3), (11, 5),
  (22, 6), (194, 3), (88, 0), (133, 4), (97, 2), (176, 1), (44, 7), (34, 2), (34, 6), (136, 0), (17, 5), (68, 3), (136, 4), (17, 1), (68, 7), (117, 7),
  (93, 5), (171, 2), (186, 6), (234, 0), (213, 1), (174, 4), (87, 3), (203, 1), (229, 0), (151, 2), (121, 6), (94, 4), (188, 5), (47, 3), (242, 7), (59, 5),
  (157, 4), (103, 2), (179, 1), (206, 3), (217, 0), (236, 7), (118, 6), (241, 0), (199, 2), (31, 4), (248, 7), (143, 3), (227, 1), (62, 5), (124, 6), (23, 4),
  (139, 3), (46, 5), (226, 1), (113, 0), (92, 6), (197, 2), (93, 6), (174, 5), (171, 3), (213, 2), (87, 4), (234, 1), (117, 0), (186, 7), (48, 3), (6, 0),
  (24, 2), (192, 5), (129, 6), (3, 7), (12, 1), (96, 4), (133, 3), (194, 2), (11, 4), (88, 7), (97, 1), (44, 6), (22, 5), (176, 0), (29, 3), (71, 1),
  (232, 6), (142, 2), (58, 4), (116, 5), (163, 0), (209, 7), (253, 1), (251, 2), (254, 0), (247, 3), (127, 7), (223, 5), (191, 6), (239, 4), (122, 5), (244, 6),
  (61, 4), (211, 0), (79, 2), (167, 1), (233, 7), (158, 3), (60, 2), (240, 4), (195, 6), (30, 1), (225, 5), (120, 3), (135, 7), (15, 0), (210, 2), (105, 1),
  (90, 7), (75, 4), (150, 5), (165, 3), (180, 0), (200, 7), (100, 6), (145, 0), (25, 4), (70, 2), (140, 3), (35, 1), (50, 5), (176, 2), (97, 3), (88, 1),
  (44, 0), (22, 7), (194, 4), (11, 6), (133, 5), (3, 6), (12, 0), (48, 2), (129, 5), (24, 1), (6, 7), (96, 3), (192, 4), (223, 1), (191, 2), (254, 4),
  (127, 3), (247, 7), (251, 6), (253, 5), (239, 0), (220, 5), (110, 4), (205, 1), (185, 6), (155, 2), (55, 3), (230, 0), (115, 7), (245, 4), (175, 7), (95, 0),
  (250, 3), (215, 6), (190, 1), (235, 5), (125, 2), (81, 6), (168, 5), (162, 7), (21, 2), (84, 4), (69, 0), (138, 1), (42, 3), (75, 6), (45, 0), (180, 2),
  (165, 5), (90, 1), (150, 7), (105, 3), (210, 4), (191, 7), (223, 6), (247, 4), (251, 3), (239, 5), (253, 2), (254, 1), (127, 0), (194, 0), (176, 6), (133, 1),
  (88, 5), (11, 2), (97, 7), (22, 3), (44, 4), (49, 2), (196, 4), (137, 5), (152, 1), (98, 3), (19, 6), (76, 0), (38, 7), (57, 7), (156, 6), (114, 0),
  (39, 4), (201, 2), (147, 3), (228, 1), (78, 5), (33, 6), (18, 2), (144, 5), (132, 0), (9, 1), (66, 7), (72, 4), (36, 3), (61, 1), (211, 5), (122, 2),
  (167, 6), (158, 0), (233, 4), (244, 3), (79, 7), (60, 1), (15, 7), (225, 4), (30, 0), (120, 2), (240, 3), (135, 6), (195, 5), (178, 7), (172, 5), (149, 2),
  (89, 6), (101, 0), (202, 1), (86, 4), (43, 3), (200, 5), (70, 0), (50, 3), (25, 2), (100, 4), (145, 6), (35, 7), (140, 1), (76, 5), (152, 6), (19, 3),
  (98, 0), (38, 4), (137, 2), (196, 1), (49, 7), (176, 4), (97, 5), (11, 0), (22, 1), (194, 6), (133, 7), (88, 3), (44, 2), (106, 5), (212, 6), (83, 0),
  (169, 7), (154, 3), (77, 2), (166, 1), (53, 4), (201, 6), (114, 4), (78, 1), (228, 5), (147, 7), (39, 0), (57, 3), (156, 2), (14, 3), (112, 6), (224, 7),
  (7, 2), (56, 5), (193, 0), (28, 4), (131, 1), (62, 4), (199, 1), (241, 7), (143, 2), (227, 0), (31, 3), (248, 6), (124, 5), (89, 4), (149, 0), (86, 2),
  (101, 6), (178, 5), (43, 1), (172, 3), (202, 7), (127, 2), (254, 3), (223, 0), (251, 5), (191, 1), (239, 7), (247, 6), (253, 4), (104, 4), (13, 1), (26, 2),
  (134, 0), (52, 3), (161, 6), (208, 5), (68, 1), (34, 0), (136, 2), (136, 6), (34, 4), (68, 5), (17, 3), (17, 7), (164, 7), (74, 3), (73, 0), (148, 4),
  (37, 2), (82, 6), (146, 1), (41, 5), (70, 5), (140, 6), (35, 4), (50, 0), (200, 2), (100, 1), (25, 7), (145, 3), (21, 1), (81, 5), (168, 4), (69, 7),
  (162, 6), (84, 3), (42, 2), (138, 0), (103, 5), (179, 4), (206, 6), (236, 2), (59, 0), (118, 1), (157, 7), (217, 3), (174, 3), (93, 4), (117, 6), (186, 5),
  (171, 1), (213, 0), (234, 7), (87, 2), (139, 5), (113, 2), (197, 4), (46, 7), (92, 0), (184, 1), (226, 3), (23, 6), (170, 3), (85, 4), (170, 7), (85, 0),
  (170, 5), (85, 6), (85, 2), (170, 1), (173, 3), (218, 7), (109, 6), (91, 4), (107, 1), (214, 2), (181, 0), (182, 5), (94, 0), (121, 2), (229, 4), (47, 7),
  (242, 3), (188, 1), (203, 5), (151, 6), (184, 4), (139, 0), (113, 5), (226, 6), (23, 1), (92, 3), (46, 2), (197, 7), (8, 2), (128, 6), (64, 5), (16, 3),
  (2, 0), (4, 1), (1, 7), (32, 4), (7, 5), (193, 3), (14, 6), (224, 2), (28, 7), (131, 4), (56, 0), (112, 1), (142, 1), (163, 7), (116, 4), (71, 0),
  (29, 2), (58, 3), (209, 6), (232, 5), (29, 0), (163, 5), (232, 3), (209, 4), (58, 1), (71, 6), (142, 7), (116, 2), (195, 7), (15, 1), (240, 5), (120, 4),
  (135, 0), (225, 6), (30, 2), (60, 3), (227, 6), (62, 2), (31, 1), (248, 4), (143, 0), (199, 7), (241, 5), (74, 4), (164, 0), (41, 6), (146, 2), (148, 5),
  (73, 1), (82, 7), (37, 3), (65, 4), (5, 6), (80, 2), (40, 1), (130, 5), (160, 3), (10, 7), (20, 0), (204, 3), (51, 1), (204, 7), (102, 6), (102, 2),
  (153, 4), (51, 5), (153, 0), (97, 6), (176, 5), (22, 2), (194, 7), (44, 3), (88, 4), (11, 1), (133, 0), (114, 2), (57, 1), (78, 7), (39, 6), (156, 0),
  (147, 5), (201, 4), (228, 3), (184, 0), (23, 5), (197, 3), (46, 6), (139, 4), (92, 7), (226, 2), (113, 1), (215, 4), (245, 2), (175, 5), (250, 1), (95, 6),
  (235, 3), (190, 7), (125, 0), (122, 7), (167, 3), (211, 2), (158, 5), (79, 4), (233, 1), (244, 0), (61, 6), (72, 5), (33, 7), (66, 0), (36, 4), (144, 6),
  (132, 1), (18, 3), (9, 2), (33, 1), (144, 0), (66, 2), (36, 6), (9, 4), (18, 5), (132, 3), (72, 7), (222, 6), (189, 7), (246, 1), (237, 2), (219, 3),
  (183, 4), (123, 0), (111, 5), (170, 4), (170, 0), (85, 3), (85, 1), (170, 2), (170, 6), (85, 5), (85, 7), (164, 3), (146, 5), (74, 7), (82, 2), (37, 6),
  (73, 4), (148, 0), (41, 1), (223, 7), (191, 0), (253, 3), (251, 4), (127, 1), (254, 2), (239, 6), (247, 5), (236, 0), (206, 4), (59, 6), (103, 3), (217, 1),
  (179, 2), (118, 7), (157, 5), (4, 4), (8, 5), (32, 7), (64, 0), (128, 1), (1, 2), (16, 6), (2, 3), (57, 4), (39, 1), (201, 7), (78, 2), (147, 0),
  (156, 3), (228, 6), (114, 5), (141, 4), (216, 0), (198, 3), (177, 1), (99, 2), (54, 6), (27, 5), (108, 7), (38, 3), (98, 7), (49, 6), (76, 4), (137, 1),
  (19, 2), (196, 0), (152, 5), (161, 7), (52, 4), (208, 6), (104, 5), (67, 0), (13, 2), (26, 3), (142, 6), (29, 7), (71, 5), (116, 1), (209, 3), (232, 2),
  (58, 0), (163, 4), (70, 3), (200, 0), (50, 6), (100, 7), (140, 4), (145, 1), (35, 2), (25, 5), (69, 1), (84, 5), (162, 0), (21, 3), (42, 4), (138, 2),
  (81, 7), (168, 6), (125, 5), (190, 4), (250, 6), (215, 1), (95, 3), (245, 7), (235, 0), (175, 2), (151, 7), (229, 5), (121, 3), (188, 2), (203, 6), (47, 0),
  (94, 1), (242, 4), (99, 0), (198, 1), (27, 3), (54, 4), (108, 5), (216, 6), (141, 2), (177, 7), (13, 0), (208, 4), (134, 7), (161, 5), (67, 6), (52, 2),
  (26, 1), (104, 3), (49, 3), (38, 0), (137, 6), (19, 7), (98, 4), (76, 1), (152, 2), (196, 5), (145, 5), (50, 2), (200, 4), (70, 7), (140, 0), (25, 1),
  (100, 3), (35, 6), (230, 4), (220, 1), (115, 3), (155, 6), (55, 7), (110, 0), (185, 2), (205, 5), (103, 4), (118, 0), (236, 1), (206, 5), (179, 3), (59, 7),
  (217, 2), (157, 6), (32, 2), (2, 6), (8, 0), (1, 5), (64, 3), (128, 4), (16, 1), (4, 7), (147, 2), (156, 5), (57, 6), (201, 1), (78, 4), (114, 7),
  (39, 3), (228, 0), (252, 6), (63, 4), (249, 7), (159, 3), (243, 0), (126, 5), (231, 1), (207, 2), (52, 6), (134, 3), (26, 5), (13, 4), (104, 7), (161, 1),
  (208, 0), (67, 2), (96, 0), (129, 2), (3, 3), (48, 7), (192, 1), (6, 4), (24, 6), (12, 5), (94, 6), (203, 3), (242, 1), (229, 2), (188, 7), (151, 4),
  (47, 5), (121, 0), (18, 6), (132, 4), (36, 7), (66, 3), (72, 0), (9, 5), (144, 1), (33, 2), (241, 6), (248, 5), (227, 7), (31, 2), (124, 4), (199, 0),
  (143, 1), (62, 3), (56, 2), (14, 0), (193, 5), (28, 1), (112, 3), (224, 4), (7, 7), (131, 6), (47, 6), (242, 2), (203, 4), (121, 1), (94, 7), (188, 0),
  (151, 5), (229, 3), (159, 5), (207, 4), (249, 1), (63, 6), (231, 3), (252, 0), (126, 7), (129, 1), (6, 3), (12, 4), (192, 0), (3, 2), (24, 5), (96, 7),
  (48, 6), (26, 7), (208, 2), (134, 5), (67, 4), (13, 6), (52, 0), (104, 1), (161, 3), (169, 3), (166, 5), (77, 6), (212, 2), (83, 4), (154, 7), (106, 1),
  (53, 0), (121, 4), (94, 2), (242, 5), (47, 1), (229, 6), (188, 3), (203, 7), (151, 0), (244, 1), (79, 5), (122, 0), (158, 6), (61, 7), (211, 3), (233, 2),
  (167, 4), (56, 7), (224, 1), (131, 3), (28, 6), (193, 2), (112, 0), (7, 4), (14, 5), (169, 4), (166, 6), (154, 0), (212, 3), (77, 7), (83, 5), (53, 1),
  (106, 2), (106, 4), (169, 6), (154, 2), (77, 1), (212, 5), (53, 3), (83, 7), (166, 0), (214, 6), (91, 0), (182, 1), (107, 5), (173, 7), (109, 2), (181, 4),
  (218, 3), (234, 4), (117, 3), (213, 5), (174, 0), (186, 2), (171, 6), (87, 7), (93, 1), (114, 6), (156, 4), (147, 1), (57, 5), (228, 7), (201, 0), (78, 3),
  (39, 2), (81, 0), (21, 4), (138, 3), (162, 1), (84, 6), (168, 7), (42, 5), (69, 2), (225, 3), (240, 2), (120, 1), (60, 0), (135, 5), (30, 7), (15, 6),
  (20, 2), (65, 6), (5, 0), (80, 4), (130, 7), (40, 3), (10, 1), (160, 5), (41, 4), (82, 5), (148, 3), (73, 7), (37, 1), (146, 0), (164, 6), (74, 2),
  (204, 1), (204, 5), (153, 2), (153, 6), (102, 0), (102, 4), (67, 3), (104, 0), (161, 2), (208, 1), (134, 4), (26, 6), (13, 5), (52, 7), (251, 0), (254, 6),
  (223, 3), (253, 7), (247, 1), (239, 2), (127, 5), (191, 4), (10, 0), (5, 7), (160, 4), (130, 6), (80, 3), (40, 2), (65, 5), (38, 5), (98, 1), (49, 0),
  (76, 6), (137, 3), (19, 4), (196, 2), (152, 7), (237, 5), (219, 6), (246, 4), (111, 0), (189, 2), (222, 1), (183, 7), (123, 3), (93, 7), (186, 0), (213, 3),
  (171, 4), (87, 5), (117, 1), (174, 6), (165, 2), (180, 7), (45, 5), (105, 0), (90, 6), (210, 1), (150, 4), (75, 3), (227, 3), (31, 6), (248, 1), (124, 0),
  (241, 2), (199, 4), (143, 5), (62, 7), (211, 1), (79, 3), (61, 5), (233, 0), (158, 4), (167, 2), (122, 6), (244, 7), (216, 2), (27, 7), (108, 1), (99, 4),
  (198, 5), (141, 6), (54, 0), (177, 3), (50, 1), (70, 6), (25, 0), (200, 3), (145, 4), (35, 5), (140, 7), (100, 2), (91, 5), (181, 1), (218, 0), (214, 3),
  (107, 2), (109, 7), (182, 6), (173, 4), (96, 2), (6, 6), (192, 3), (129, 4), (12, 7), (48, 1), (24, 0), (3, 5), (210, 5), (165, 6), (150, 0), (45, 1),
  (90, 2), (180, 3), (75, 7), (105, 4), (139, 2), (197, 1), (184, 6), (23, 3), (113, 7), (226, 0), (92, 5), (46, 4), (124, 1), (31, 7), (227, 4), (62, 0),
  (248, 2), (241, 3), (143, 6), (199, 5), (16, 5), (32, 6), (1, 1), (2, 2), (64, 7), (128, 0), (8, 4), (4, 3), (45, 4), (150, 3), (165, 1), (210, 0),
  (75, 2), (105, 7), (180, 6), (90, 5), (57, 0), (114, 1), (156, 7), (78, 6), (39, 5), (228, 2), (147, 4), (201, 3), (136, 7), (136, 3), (68, 6), (34, 1),
  (68, 2), (17, 0), (34, 5), (17, 4), (91, 2), (182, 3), (173, 1), (218, 5), (107, 7), (181, 6), (109, 4), (214, 0), (150, 6), (90, 0), (180, 1), (75, 5),
  (45, 7), (105, 2), (165, 4), (210, 3), (53, 6), (106, 7), (154, 5), (212, 0), (77, 4), (83, 2), (166, 3), (169, 1), (62, 1), (248, 3), (143, 7), (199, 6),
  (124, 2), (31, 0), (241, 4), (227, 5), (241, 1), (31, 5), (227, 2), (199, 3), (62, 6), (248, 0), (124, 7), (143, 4), (116, 0), (232, 1), (58, 7), (29, 6),
  (142, 5), (209, 2), (71, 4), (163, 3), (154, 4), (53, 5), (169, 0), (83, 1), (106, 6), (212, 7), (77, 3), (166, 2), (133, 2), (88, 6), (44, 5), (97, 0),
  (176, 7), (22, 4), (11, 3), (194, 1), (119, 5), (187, 4), (119, 1), (238, 6), (238, 2), (221, 3), (187, 0), (221, 7), (205, 3), (230, 2), (185, 0), (220, 7),
  (115, 1), (110, 6), (55, 5), (155, 4), (99, 5), (141, 7), (27, 0), (177, 4), (198, 6), (54, 1), (216, 3), (108, 2), (95, 2), (215, 0), (190, 3), (235, 7),
  (125, 4), (175, 1), (250, 5), (245, 6), (190, 2), (235, 6), (175, 0), (250, 4), (245, 5), (125, 3), (95, 1), (215, 7), (74, 6), (148, 7), (82, 1), (164, 2),
  (73, 3), (146, 4), (41, 0), (37, 5), (226, 7), (46, 3), (139, 1), (184, 5), (197, 0), (92, 4), (113, 6), (23, 2), (13, 7), (134, 6), (26, 0), (161, 4),
  (67, 5), (104, 2), (52, 1), (238, 5), (221, 6), (119, 4), (187, 7), (187, 3), (238, 1), (221, 2), (119, 0), (33, 0), (66, 1), (18, 4), (36, 5), (9, 3),
  (144, 7), (72, 6), (165, 0), (45, 3), (90, 4), (210, 7), (150, 2), (180, 5), (75, 1), (105, 6), (122, 4), (244, 5), (61, 3), (233, 6), (158, 2), (167, 0),
  (79, 1), (211, 7), (4, 5), (16, 7), (64, 1), (2, 4), (32, 0), (8, 6), (128, 2), (1, 3), (10, 3), (160, 7), (130, 1), (80, 6), (20, 4), (40, 5),
  (5, 2), (65, 0), (213, 6), (93, 2), (117, 4), (87, 0), (171, 7), (186, 3), (234, 5), (174, 1), (204, 6), (204, 2), (102, 1), (51, 4), (153, 3), (51, 0),
  (153, 7), (102, 5), (222, 0), (189, 1), (111, 7), (246, 3), (219, 5), (237, 4), (123, 2), (183, 6), (108, 6), (177, 0), (198, 2), (54, 5), (99, 1), (216, 7),
  (141, 3), (27, 4), (71, 3), (116, 7), (142, 4), (29, 5), (232, 0), (163, 2), (209, 1), (58, 6), (236, 6), (206, 2), (103, 1), (217, 7), (59, 4), (118, 5),
  (157, 3), (179, 0), (60, 4), (30, 3), (15, 2), (120, 5), (225, 7), (240, 6), (195, 0), (55, 2), (115, 6), (110, 3), (220, 4), (230, 7), (155, 1), (205, 0),
  (185, 5), (132, 5), (9, 6), (36, 0), (72, 1), (144, 2), (33, 3), (18, 7), (66, 4), (218, 4), (181, 5), (109, 3), (182, 2), (91, 1), (107, 6), (173, 0),
  (214, 7), (98, 6), (76, 3), (49, 5), (152, 4), (196, 7), (19, 1), (137, 0), (38, 2), (27, 6), (198, 4), (54, 7), (99, 3), (108, 0), (141, 5), (216, 1),
  (177, 2), (20, 7), (80, 1), (5, 5), (130, 4), (40, 0), (10, 6), (160, 2), (65, 3), (240, 0), (15, 4), (120, 7), (195, 2), (135, 3), (225, 1), (60, 6),
  (30, 5), (245, 3), (95, 7), (250, 2), (215, 5), (175, 6), (235, 4), (125, 1), (190, 0), (149, 6), (172, 1), (101, 4), (178, 3), (202, 5), (43, 7), (86, 0),
  (89, 2), (94, 3), (188, 4), (151, 1), (242, 6), (47, 2), (203, 0), (229, 7), (121, 5), (48, 0), (96, 1), (3, 4), (6, 5), (192, 2), (129, 3), (24, 7),
  (12, 6), (111, 4), (123, 7), (219, 2), (237, 1), (183, 3), (222, 5), (189, 6), (246, 0), (73, 2), (146, 3), (164, 1), (37, 4), (82, 0), (148, 6), (41, 7),
  (74, 5), (27, 2), (54, 3), (198, 0), (216, 5), (141, 1), (99, 7), (177, 6), (108, 4), (59, 2), (157, 1), (118, 3), (179, 6), (206, 0), (236, 4), (217, 5),
  (103, 7), (245, 0), (125, 6), (95, 4), (175, 3), (250, 7), (235, 1), (215, 2), (190, 5), (63, 0), (126, 1), (207, 6), (249, 3), (159, 7), (231, 5), (243, 4),
  (252, 2), (254, 7), (239, 3), (251, 1), (191, 5), (253, 0), (223, 4), (127, 6), (247, 2), (14, 7), (131, 5), (112, 2), (7, 6), (28, 0), (56, 1), (193, 4),
  (224, 3), (103, 0), (217, 6), (59, 3), (179, 7), (206, 1), (157, 2), (236, 5), (118, 4), (239, 1), (191, 3), (251, 7), (253, 6), (223, 2), (247, 0), (127, 4),
  (254, 5), (216, 4), (141, 0), (198, 7), (177, 5), (54, 2), (108, 3), (27, 1), (99, 6), (137, 4), (152, 0), (196, 3), (49, 1), (98, 2), (38, 6), (19, 5),
  (76, 7), (183, 1), (222, 3), (123, 5), (219, 0), (189, 4), (111, 2), (246, 6), (237, 7), (117, 5), (186, 4), (234, 6), (174, 2), (171, 0), (87, 1), (213, 7),
  (93, 3), (43, 4), (172, 6), (89, 7), (149, 3), (86, 5), (178, 0), (202, 2), (101, 1), (56, 6), (7, 3), (193, 1), (14, 4), (131, 2), (28, 5), (224, 0),
  (112, 7), (15, 3), (135, 2), (225, 0), (240, 7), (195, 1), (120, 6), (60, 5), (30, 4), (229, 1), (242, 0), (94, 5), (203, 2), (188, 6), (121, 7), (47, 4),
  (151, 3), (165, 7), (150, 1), (90, 3), (210, 6), (45, 2), (75, 0), (180, 4), (105, 5), (218, 6), (91, 3), (109, 5), (107, 0), (214, 1), (173, 2), (182, 4),
  (181, 7), (12, 2), (192, 6), (6, 1), (48, 4), (96, 5), (24, 3), (3, 0), (129, 7), (101, 5), (178, 4), (202, 6), (86, 1), (89, 3), (149, 7), (43, 0),
  (172, 2), (23, 7), (139, 6), (46, 0), (113, 3), (197, 5), (92, 1), (184, 2), (226, 4), (79, 0), (233, 5), (167, 7), (211, 6), (158, 1), (122, 3), (61, 2),
  (244, 4), (128, 3), (64, 2), (1, 4), (16, 0), (4, 6), (8, 7), (2, 5), (32, 1), (10, 5), (160, 1), (20, 6), (40, 7), (65, 2), (5, 4), (130, 3),
  (80, 0), (171, 5), (186, 1), (93, 0), (87, 6), (234, 3), (213, 4), (117, 2), (174, 7), (238, 3), (119, 2), (221, 4), (221, 0), (119, 6), (238, 7), (187, 5),
  (187, 1), (22, 0), (97, 4), (133, 6), (176, 3), (44, 1), (88, 2), (11, 7), (194, 5), (231, 6), (159, 0), (63, 1), (243, 5), (207, 7), (126, 2), (249, 4),
  (252, 3), (209, 5), (163, 6), (232, 4), (116, 3), (58, 2), (71, 7), (29, 1), (142, 0), (103, 6), (118, 2), (179, 5), (236, 3), (217, 4), (157, 0), (206, 7),
  (59, 1), (195, 3), (240, 1), (30, 6), (225, 2), (135, 4), (15, 5), (120, 0), (60, 7), (163, 1), (142, 3), (29, 4), (209, 0), (71, 2), (58, 5), (232, 7),
  (116, 6), (77, 5), (83, 3), (169, 2), (154, 6), (166, 4), (106, 0), (212, 1), (91, 6), (182, 7), (218, 1), (109, 0), (214, 4), (107, 3), (181, 2), (173, 5),
  (136, 5), (68, 4), (17, 2), (136, 1), (34, 3), (68, 0), (34, 7), (17, 6), (144, 3), (72, 2), (9, 7), (33, 4), (18, 0), (36, 1), (132, 6), (66, 5),
  (202, 0), (101, 7), (149, 1), (172, 4), (178, 6), (86, 3), (43, 2), (89, 5), (162, 2), (21, 5), (168, 0), (84, 7), (81, 1), (69, 3), (138, 4), (42, 6),
  (162, 5), (42, 1), (69, 6), (138, 7), (84, 2), (81, 4), (168, 3), (21, 0), (115, 4), (230, 5), (185, 3), (220, 2), (110, 1), (205, 6), (55, 0), (155, 7),
  (72, 3), (144, 4), (36, 2), (18, 1), (9, 0), (33, 5), (132, 7), (66, 6), (219, 1), (111, 3), (222, 4), (237, 0), (183, 2), (189, 5), (246, 7), (123, 6),
  (102, 3), (153, 5), (102, 7), (51, 2), (51, 6), (204, 4), (204, 0), (153, 1), (55, 1), (205, 7), (110, 2), (230, 6), (220, 3), (155, 0), (185, 4), (115, 5),
  (126, 6), (252, 7), (63, 5), (243, 1), (207, 3), (231, 2), (249, 0), (159, 4), (56, 3), (131, 7), (14, 1), (193, 6), (112, 4), (224, 5), (28, 2), (7, 0),
  (28, 3), (56, 4), (7, 1), (224, 6), (14, 2), (131, 0), (193, 7), (112, 5), (73, 5), (74, 0), (82, 3), (41, 2), (164, 4), (146, 6), (37, 7), (148, 1),
  (113, 4), (46, 1), (139, 7), (92, 2), (23, 0), (184, 3), (197, 6), (226, 5), (221, 1), (187, 2), (221, 5), (187, 6), (119, 3), (238, 4), (238, 0), (119, 7),
  (134, 2), (13, 3), (67, 1), (161, 0), (208, 7), (26, 4), (104, 6), (52, 5), (172, 0), (86, 7), (149, 5), (202, 4), (43, 6), (101, 3), (178, 2), (89, 1),
  (83, 6), (106, 3), (154, 1), (212, 4), (53, 2), (169, 5), (77, 0), (166, 7), (64, 4), (16, 2), (128, 5), (8, 1), (1, 6), (32, 3), (2, 7), (4, 0),
  (21, 6), (42, 7), (168, 1), (81, 2), (162, 3), (69, 4), (84, 0), (138, 5), (228, 4), (201, 5), (39, 7), (78, 0), (156, 1), (147, 6), (114, 3), (89, 0),
  (101, 2), (202, 3), (172, 7), (178, 1), (149, 4), (86, 6), (43, 5), (109, 1), (218, 2), (107, 4), (181, 3), (91, 7), (173, 6), (214, 5), (182, 0), (76, 2),
  (38, 1), (152, 3), (196, 6), (19, 0), (49, 4), (98, 5), (137, 7), (243, 7), (231, 0), (207, 1), (252, 5), (126, 4), (63, 3), (249, 6), (5, 1), (80, 5),
  (130, 0), (160, 6), (65, 7), (20, 3), (10, 2), (40, 4), (233, 3), (244, 2), (211, 4), (61, 0), (79, 6), (158, 7), (167, 5), (122, 1), (162, 4), (42, 0),
  (69, 5), (138, 6), (84, 1), (81, 3), (168, 2), (21, 7), (50, 7), (25, 6), (100, 0), (35, 3), (140, 5), (200, 1), (145, 2), (70, 4), (231, 7), (249, 5),
  (126, 3), (63, 2), (243, 6), (207, 0), (159, 1), (252, 4), (129, 0), (12, 3), (96, 6), (48, 5), (192, 7), (3, 1), (6, 2), (24, 4), (183, 5), (111, 6),
  (189, 0), (123, 1), (246, 2), (237, 3), (222, 7), (219, 4), (148, 2), (73, 6), (74, 1), (146, 7), (37, 0), (82, 4), (41, 3), (164, 5), (126, 0), (252, 1),
  (243, 3), (231, 4), (207, 5), (159, 6), (249, 2), (63, 7), (195, 4), (243, 2), (20, 1), (53, 7), (132, 2), (124, 3), (159, 2), (51, 7), (45, 6), (57, 2),
  (208, 3), (134, 1), (67, 7), (184, 7), (51, 3), (135, 1), (234, 2)]

end Verif
