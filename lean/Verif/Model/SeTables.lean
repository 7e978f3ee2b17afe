/-!
The self-equivalence pairs `A[k]`, `B[k]` written by `SE_initial` (`/repo/src/se_wbsm4/se_wbsm4_local.c` lines 3-40783),
copied from the source text by a script.  An entry packs `Mat.M[0]`, ..., `Mat.M[7]`, `Vec.V` from the most significant
byte to the least significant one.
-/
set_option autoImplicit false
set_option maxRecDepth 20000

namespace Verif.Model

/-- `A[0], ..., A[2038]`. -/
def SE_A : List Nat := [
  0x0520865c9466027f00, 0xc4d992e6659d02de00, 0xf195402a7cd3025300, 0x5d5b953e501f02ee00, 0x1986618e3fc2027500,
  0xb761d9f5552702e300, 0x43925bc7bfd4028900, 0x02de212acc8e271323, 0xb3ec294a699b27c9af, 0xa50cb56ef45c2798a2,
  0xea0f0c667f7827dd4b, 0xc4b5deca97c227c04a, 0x9d21abb6a65627a3e3, 0xf5abec677dfb2748de, 0x52290f546279279367,
  0x2920b1fdb51b860707, 0x124652258d7d86dce2, 0x42c82082c275865c9a, 0xa152e9934aef869b5f, 0x74e9c864ddd2869006,
  0x4fb49601638f8670ae, 0x1cb1b473cf0c86431b, 0xff964659c12b8639e6, 0x69c8498db6a6d719bd, 0xc59883dafa21d7269d,
  0x078333993eedd7eb1c, 0x7c5bc8281ce2d78b04, 0x221898ae1a76d7b39c, 0x06333dc9738ad7c6b5, 0xbf49185542f0d7d259,
  0x4c3d5b034553d72f48, 0x7fe59676a187340df7, 0x1d403dbff92234feb3, 0x217e40f01928343543, 0xb80b83f29369341e03,
  0xdc3d0b24806b34d3d2, 0xdacc7e6dffae348f7f, 0x8a96ccb58ec0341a7a, 0x7783e50323d534aaa6, 0x6d431bf35c7be31a7e,
  0x07429ba7d199e3cc2f, 0x8d15ff2cb02de3f113, 0xba7d15ac5ba6e32b1f, 0xdcff43a48c24e349bf, 0x611bf597e5c0e375c2,
  0xb5f542a936cde3ca1a, 0x559b7dad39a3e3194f, 0x990ab9fc589ccd3557, 0x0756cc4cf6c0cd2333, 0xa9b9c832f9e2cd7317,
  0xf2a856f7e0f3cdf487, 0x91c88690795ecde602, 0xe3cc0a2c8b97cd0efa, 0xb886027f5fddcdd227, 0x0f02a87b1a94cd665e,
  0x764856a91391a71c17, 0x8d5640634e28a78e02, 0xaf98785e9341a7b287, 0xf3784914b006a77933, 0xa6400253c699a73a27,
  0xa302984c6c7ca7d35e, 0xdd5248e2352ca75a57, 0x7f4952dae190a74dfa, 0xa6d836970e20e20849, 0x28366461112ce2bd85,
  0x69ab196d4f53e284f8, 0xcde6eff767fce2a2a4, 0xd719d8da5703e2a570, 0x32d3abb4c3c9e2a024, 0x5eefd38ac617e225d0,
  0x9164e66a659ce25114, 0xc5387d21fba36f36d4, 0x5e118b4cd08a6febd4, 0x77bb716b19206fb7a1, 0x637311348c876fd9ec,
  0x957d094147896f6599, 0xec0973f25d926ff1a1, 0x977138e93c856f40ec, 0x618bbb07987f6f0899, 0x5a7fb29621f6d03434,
  0x0a2c0e23e9a5d09058, 0x6cf9a6c32ba0d073f1, 0x350e7f438c57d00d1d, 0xc2b27c3e3aebd068e1, 0x837cf95d17f5d099f9,
  0x9b1c2c374d45d04f78, 0xd3a61cb10f2fd0b4e0, 0xa4a1f1775bbfa9ab6d, 0x28c7a103c370a9d4a0, 0x14f1b2326c46a9c17d,
  0xa37a8fb8c4cda95430, 0x9ffb8297c24ca9f6ed, 0xba827ae2449ca93f55, 0x87b2fbe960aca93364, 0x998fc7cbd691a9b95c,
  0x0fe76c94efc9ae7d54, 0x6d2fe72d39afaea028, 0x34354ff202b5ae9dc4, 0x21ee35e33fc0aef421, 0x284f2f707361ae0c80,
  0xedf6eea4c776ae575d, 0x0668f6870d46aeabf5, 0xb46c685552ecaeeab1, 0x87c3138936e9d5ea69, 0x55bb3a8d7a91d55a3d,
  0xad11db6bd33bd5c7c8, 0x340dc3f086f2d575e8, 0xcb3a11dd49c5d56871, 0x0313bb95e7ecd5b9c0, 0xfcdb4392fd24d55b2c,
  0x7f430d904a69d55de9, 0x98ad4edb348c64d5ab, 0x751aad1e805f64c796, 0x594e70cecf0b6431da, 0x1c27f308046264793f,
  0xb90f2793ba2e6432d7, 0x3a7036449c51646112, 0x1bf31a4976d264a756, 0x9674f0fb489a795958, 0xb0ae74c1ad3979af78,
  0x5414e7586f837987f1, 0x780814f147e679b2f9, 0x04e7aea08f0979b9e0, 0x27dd082a4c4a7932e1, 0xea75dd3df99b79bc34,
  0xc3f0755df767798d1d, 0x7876713795045414fb, 0x361b944aef3d54f9e7, 0x5c5f76b0a1795401f6, 0xb62813bd975a5420be,
  0x7a13b8585135543fff, 0x0ab81b2f17ca54fc6b, 0xc4945f8341e654ba63, 0x107128d04b5754e1d6, 0xcc0532303d51263170,
  0xfa9c05296bee2622f8, 0x6032bb59ad40267c49, 0x98f5da8c57a126b3a4, 0x681f9c48354b26b124, 0x8806f5ab557426ec14,
  0x3cbb068679ef266785, 0x12da1f8fb5a826c0d0, 0x03129af2fd7270c68b, 0xa9ab4597e0cb707447, 0xaf4ed8cd545e703deb,
  0xbf451217f55570560e, 0xb49a016f838a70439f, 0xc9014efc516170ce3b, 0xa481abd55291703837, 0x63d881893cb8701ccf,
  0xccbe6d3f6ef48f1a3c, 0xee6db71b07a88fe3f0, 0x3a1dbe8c76d88f1405, 0x4bb7c9d95dfd8f0261, 0x017a1d4781308f0a8d,
  0x86397c643d738f58a5, 0x2b7c7a1391b98fb851, 0xffc939ce6f0c8f8ad1, 0xa3135420084c9ce545, 0xa9547377cf979c5a29,
  0x212a13c023e99c4a20, 0xe2a27d6d9a619c9d18, 0x6a1f4285eadc9c4e11, 0xfc7d1f34ee229c4808, 0xcd73a27b492c9cced5,
  0x92422aac331d9c3c98, 0x815bd72f12c30a2bad, 0x1648a75a08d00a4b15, 0x19cca4c464540a2e79, 0x09465bcf72d40a55c9,
  0x9ba7ccca9c350a2c25, 0xe8d748a56d450a5340, 0x7aa4473889360ab8d9, 0x8e47462374df0ad6b4, 0x4e4820c40c43b1fd1e,
  0x1f34489de38eb1c08a, 0x043bcc09a981b1bfa3, 0x35bc95b0e7b7b11216, 0xa595335c322fb16a83, 0xbe20bcc3c99ab1af92,
  0x3ecc341a8cc7b1d8cb, 0x5e447e9f8877618be2, 0x703d44975a6f6131e6, 0xfc7e4824b62c61b05f, 0xaea0b987aaf2615d1b,
  0x22b1860727e3618e9a, 0x6d86a072c6b5611b07, 0x9c48b1c0f47b615906, 0xafb93d7fdb8a61faae, 0x8c2c04934147a19fd0,
  0xd8046ab958cea18324, 0xa8c72ce4bd0da181a4, 0x26c0c730bfaba10314, 0x12bec0d92374a15285, 0x4d6ab72baf01a163f8,
  0xe7edbe42f086a19449, 0x62b7edef677da19a70, 0x7ee707bea81a6ca16b, 0xb70841a0c6f56ce563, 0x832eace85bd36cf9fb,
  0x817be7c3ecea6c94ff, 0x10412e9be2d06c53f6, 0xbb0708ebda966c21e7, 0x2aac3c4eb83d6c77d6, 0x4a3c7b6759c16c40be,
  0x5bcf55d65271e05aa5, 0x2b55ca3afc0be0d551, 0x13c04a3c329ee07b05, 0xdecac0981a74e0678d, 0x60f1a640194fe00261,
  0x756df15f4133e053f0, 0xe54a6d50b1f4e0813c, 0x4da6cfe76ff8e0a3d1, 0x0d6e9584383c335c02, 0x2ee96e9e7b88338517,
  0x5f83baf99bd133d033, 0x609502eeb5f4331427, 0x01babd3077db3369fa, 0xb2bde926eaef33c157, 0x4fa783128ac6339987,
  0xe002a73a7a50331f5e, 0x74a43d29691e0b247f, 0x51bdb4feb70c0bc2d2, 0xceb456f8a30e0b8503, 0xe067a45fc7d60ba27a,
  0x6461bd084cdb0b8ab3, 0x8b56cbe138e70b39a6, 0x3a3d61fa438c0be843, 0xdecb67688d710b91f7, 0x16b2edc37452be4276,
  0xc8c5b227ba9bbe8da7, 0x10edfa5787b3be46d3, 0xf6516ba54fb1beff0a, 0x15f9c5b67119bed1c6, 0xf5fa1d8ef41abe8c82,
  0x961d519a6143beb50f, 0x4e6bf90ae235be2036, 0x580b20f64b43838c16, 0x3198a7d3d1d083128e, 0x10622db3e42a832ecb,
  0x09610be8d5aa83f292, 0xc2a7624a326c837ca3, 0xcf2098f5edeb83da83, 0x042db91f89e6839f8a, 0x79b9615dfdf183f81e,
  0x6f086c2126348a4b51, 0x613108c057878ae8a5, 0xc9c4ce92f1728a0261, 0x532bc4b51b178adef0, 0x70ce31d529f28a93d1,
  0xd72f2b5556998aca3c, 0x4cd12ff79eed8a3a05, 0x7f6cd13b7ada8a968d, 0xff2cf12b72de8897f8, 0x3c6a9dfe07988806d0,
  0x49f1a9ab0a8b884570, 0x335c6a129626881aa4, 0xcea94adb695b88bf49, 0x9e9d2c0b5ae7881824, 0xe44a1d404e30883d85,
  0x0d1d5c7494ef88dc14, 0xf2c2f424c7dd9410bc, 0xf3bb267c4ea494df35, 0x7b26c32d2bad944060, 0xf01bc2a708909462c1,
  0xcdf4bbfc0b7f948cd8, 0xedc3428dfbdc949a50, 0xeca51b5ee6ba944aac, 0x4642a569bcc994250c, 0xd31d8f0a70d4c7cbbb,
  0x80c61d383cc8c71b5b, 0x1f8fc0b30d81c730c3, 0x111e6b16fe10c76853, 0x8e597f540857c74d86, 0x1a7f1e528db6c7a7b2,
  0xb1c059b02d09c7879b, 0x786bc6e617a2c722aa, 0x78fdac0433d380c6a9, 0x5674fc7a445a80e1e4, 0xeb69fd1fb5c780bf81,
  0xf12b97180e0580404c, 0x45977438ec39806fb9, 0x15ac2b19af0280f3fd, 0xdf8c69c8f9a2804901, 0xbbfc8c107652808dc5,
  0xd2e64cd1d0bcef2f20, 0x881aec2b3940ef6618, 0x934c815bbff9efd745, 0x26ec2748e359ef2d08, 0x8690e6731725eff798,
  0x33851a3aa430efb8d5, 0x2e81855131dbefe829, 0x7427901e377deffb11, 0xa292ccbe28357e6dad, 0x5c1744112cb07e9fb4,
  0xf633cb1a74ea7eef25, 0x2f44929afd9d7e3fc9, 0x58cce93129157eee40, 0xfbe933c17c4e7eb815, 0x81621716debb7ee7d9,
  0x05cb62b7066c7eed79, 0xa8c3d57578d24279ef, 0x65f57648b6e442562a, 0xe16f1f601d3c4285db, 0xb276c3efc925428d73,
  0xabd5381c0f8642f272, 0x74386f40312942c86e, 0xf89ff58299cc42a997, 0xb91f9f2ebd0e42f693, 0x2844bdc00d0320e1e2,
  0x971840f3667f20109a, 0x6b480a53840f20ffae, 0x85c848ae9aaf20c41b, 0xf00a4490376d2045e6, 0xe2bd0b8aebda20f65f,
  0x2c0b1806b24c20db06, 0x6f40c8f21b07208207, 0xe145f33c5c62502fac, 0x4df3d347bf8450cbc1, 0x685a90a1797d503950,
  0x3399eb2634ee5028d8, 0x449045ffb4e750060c, 0x3a8d5ab96ffa509260, 0xc6eb8d65fbcc50f635, 0x4fd3998f8ef450c7bc,
  0xe49cc2e0f3330d1dd0, 0x2ec2dabc37600d6e24, 0x4b76098470d90d5549, 0x8c099f5b16ab0d0a85, 0x0eda4329f2750d90f8,
  0xe543767452e10daa70, 0x472a9c3c7e880d6ca4, 0xa19f2aef7c300d7714, 0xb2278dd17acce48e2e, 0x428d9a40af82e4a7ce,
  0x4824b08bb42be472ee, 0x259a24e08071e439b6, 0xcee6210ef60de44a26, 0x4d87e6333288e446c7, 0x59b08730e85be416f3,
  0x47212713cd2ee49cdf, 0x3e8489a2657e5cff86, 0xc2e01d6c261a5c74c3, 0xc8f28210a7545c90aa, 0x6e1d84b0b4bb5c859b,
  0x81891c3de22f5c17b2, 0x381cf27993e65c2e53, 0x27c0e067ad665ca4bb, 0xc482c0118c785c5f5b, 0x41e4361d3c324c880d,
  0x9c5a0c3443c04c5741, 0x970c10ed68da4cfa94, 0x06e6e446c17c4c3d95, 0xa93f5a03e1e94c7568, 0x20100153a08a4cf58c,
  0xba363ff76eac4c052d, 0x7f01e669f9d74cd184, 0xa163c4d9f293ce922c, 0x3fb6140d8188cec13d, 0x73357bdebb0bce5a69,
  0x491479b2bae4cea971, 0x517bb65ba68bceb4c0, 0x4d7963f81f47cee6c8, 0xb9fc350e200cce7fe8, 0x01c4fcdbebface43e9,
  0xf4edea30b86459fc73, 0x7d6d9dce9fe459acdb, 0xfdc05c5fdd49597697, 0x74c9fb71a34059af72, 0x98eac901a03a594eef,
  0x489dc0d8574d59b093, 0x3f5ced0beb8c59782a, 0xeffb6d5b452b59566e, 0xe31a64a7542c24578d, 0x7b64ebc5687624d205,
  0x929a3f9fbdac24c1a5, 0x7f295d41c63b24eef0, 0x6d3f1a14a12d24ce51, 0x69609aa62b7224e0d1, 0xd55d6095056b240261,
  0xa4eb29bfc8dd24a23c, 0x712cd04f5350e1146f, 0xd9dfc5f81842e136ca, 0x74c57a7d63b9e16f0b, 0x0d55df3cb829e1f066,
  0xd67a2c62b0e7e196b7, 0x08c0e89369bce1f73a, 0x44d0c0606e4de1455a, 0x9251beb5a8e36d3f99, 0xf7fb517b11246db6d4,
  0xdcbe1cafc4616d43a1, 0x034a1e7280956d05a1, 0x28d0e114380f6d2fd4, 0x20e14af333536d5099, 0x221cd0b412ae6d86ec,
  0x901efb2de4ac6d5bec, 0x41504ea930bfb58474, 0xae0c5d5525e3b58239, 0x3b4e4b765714b509f4, 0x615df89f1807b5f5cc,
  0x289a0ccdc2c0b56e88, 0x72d350cb3889b5c8b0, 0x1d4b9a7b59a4b58cdc, 0xf2f8d3ddf917b56591, 0xdb7892c61fee5bc79a,
  0x29926e4ff35f5b4107, 0x303478d6ddf95b2206, 0xfd2dbdde97e05badae, 0xe4463dd1e28b5b03e2, 0x4dbd4684c32b5bcfe6,
  0x1e6e2d7139f85b051b, 0x883d34febeab5b9b5f, 0xdfecf8316bc836f00a, 0xfb99d8352cbd369776, 0x18e499c2e5f6360da7,
  0x8e70d65cdd54365e82, 0x2ad8703d73ca3644d3, 0xaa21e44aac05361dc6, 0x38f8217e26ea364036, 0x0ad6eca586c4361b0f,
  0x0be8f2f8025f1ed3c4, 0x3a7fe8eebfd61edd21, 0x8cf24a4dac5b1e7280, 0x25eddf7191441edaf5, 0x93c9ca659c601edc54,
  0xbccaed50967d1e58b1, 0x294ac9489afd1e6e28, 0x9edf7f4910681e525d, 0xf685efe869154e6b78, 0x7eefad110b314edb58,
  0xc101990a13df4eb934, 0xeaad01c45e3d4efc1d, 0x7a2160356db14eaef1, 0xa0502143a88e4ef4f9, 0x669950c714094ea9e1,
  0x1f6085c8febe4e48e0, 0xdeb3f0711982252a96, 0xbc8ad4e0cb9e25edd7, 0xc607b3cca91325cd56, 0x427969601548259ada,
  0xd2692f446a7d259212, 0xef2f8a3aeb1e25a23e, 0x73d4073fc2e525233f, 0xa8f079592de425a6ab, 0xa9337eb8517746db38,
  0xac7e98ad667c464e4d, 0xeda857d5e1ec464238, 0xae574770d45546234d, 0x329896c97ddc465938, 0x8596a8f0279446794d,
  0x87bd3369d3bf46164d, 0x7647bda68b03468438, 0x20ffc38ad9f2affdba, 0x2d710541337cafd1fe, 0xc9c171997a63af4e7b,
  0x0fc37d5e5861afcf42, 0xa3fea5cd75f3af984e, 0x6ba5ffb59d07af279e, 0xad05fe7f10a7af04ea, 0xae7dc1a43070afb932,
  0x06d0c6631f21edf6ed, 0x8acae0d5803beda230, 0xf75c88dcc1aded66a0, 0x85b2d0344baeeda864, 0x99e05ca464fced0b5c,
  0xd7c6ca8d44daed5055, 0xcb88b7ec8694edef6d, 0x7bb7b276b346edc37d, 0x9c4ae07bbb851d6c3e, 0x537afaae43b51d8e96,
  0xe9e0040f62321d9ed7, 0xac04c6bfd4cb1d383f, 0x3bfafb2248281d4bab, 0x210e4a46efdc1d4012, 0x63fb0eb831341d15da,
  0xf3c67aa4d8141d4756, 0x86078e59a464757fc2, 0xe503aa1e9260756d1f, 0x3ff6034d45e075054f, 0x1b8e979ebb98751a1a,
  0xe1f0c4625e9375babf, 0x29c4075f10d275547e, 0x0daaf0ef9bbc755d13, 0x8297f6331df475cb2f, 0x252a2844353f13bd95,
  0xd9f5e3756ee0133e8c, 0x822809645e2e13e20d, 0x8472f59eed7413ad94, 0xcc09bf3cc81c13c42d, 0xdee32a0e4ce513c084,
  0xd8bfc3e1ecb9138968, 0x30c3720b80d6135241, 0x651528a88e3fff6e0e, 0x62a29ccebd88ff1637, 0x4b5338a1ec86ffc93b,
  0x9e9c15592449ff2c47, 0x5128a50cf2fdffb58b, 0x48a5532ba08fffc49f, 0x8432a2dec5e7ff85cf, 0x4f3832986c12ff96eb,
  0x8bc5394faf0c0e078b, 0xccca2c4b570d0e2337, 0xf8fba933813c0e7eeb, 0x42a9ca75f7600eaccf, 0x0b398929c8fe0e199f,
  0x2e2ccfdb8ae50eda47, 0x3fcfc59810080e830e, 0xe789fb26dc400eb83b, 0xb7d7e543c01a967679, 0xf53b44fb9cf6961db4,
  0x38b498ea947996c915, 0x3762b49a2b39960140, 0x6ce53b4eeebe964bd9, 0xb098d7b3abc3967425, 0xeb4495aaf81f9665c9,
  0x7a9562095e58966fad, 0x8b4cebd9d5e14be9c0, 0x26221986af8f4b612c, 0xfa4e22fd9da84b8ec8, 0x48e25a4d954f4b53e8,
  0xe5214ef4a48c4b7671, 0x08eb21a1b30d4be83d, 0x1c5a4c754abc4b3769, 0x73f2f1659fdec60739, 0x5f7cd068da50c66374,
  0xfd6b04f41447c6bf91, 0xd1c9cf1397e5c6f7dc, 0xd9f16bd6c81bc6e6cc, 0x33d0c99e673ac6ebf4, 0xf8047ccc4eeec6b1b0,
  0x12cff2a82725c65688, 0x25cdbd60ace0e5f3b5, 0x3f20838c870de50304, 0x12175674ad3ae5fc9d, 0xdba0171ea268e57a9c,
  0x13bd20e1a575e54a48, 0xc656cdf45c9ee5bb1c, 0x0e83d726be4be543bd, 0x08d7a05063fae52159, 0xb69050396309b05ea8,
  0x9d24d8b3a9bdb0ace5, 0x2f223fcf97bbb0c5a8, 0x389e2218feb7b09844, 0x11d8908393f1b04744, 0x57500fc38679b07d7c,
  0x040f9e6ced96b0aee5, 0x7e3f24c15b16b08b7c, 0x7627ef2dc1a68d5624, 0xc5ab27a382a78dd1d0, 0xf7ebd695386a8d9685,
  0xf0ef5d6dfde38d59f8, 0xfcd6102c08da8de114, 0x3b10ab280a918d54a4, 0xc99eeb63fa928d6549, 0xba5d9e9c7edc8d1570,
  0x04939f81886c2aefc3, 0x6606933d69d32ad7bb, 0x56af5f3e3b7a2a63aa, 0xfb71af4e8f8e2ad853, 0x195f06d012a02ac65b,
  0xb3e3710a91362acdb2, 0xe642e3ca3fbd2a0e86, 0x839f42f6e94a2aac9b, 0xdabe8f140987c0b33e, 0xcd0ed090bcf7c060ab,
  0xb582cacb9e7bc09856, 0x97d0fad5aae9c0a5da, 0xe3ca0eac05f3c03e96, 0x4cfabe46ab03c0d912, 0xae9d829466a4c0113f,
  0x348f9d244976c0d8d7, 0xd12057501484bc0fb3, 0xefd70a2b7073bc8a7f, 0x8b57e9e0054fbc04d2, 0x933dd7c6f525bcca7a,
  0x4be978fd244dbcac03, 0xf90a20ffb712bcc343, 0xe178ba7dfb60bc15a6, 0x75ba3d9efc1ebc8df7, 0x0ff9ca613f7b6a4945,
  0x8de1042d01636ab908, 0xfc7ae16faa926a1f18, 0x95845c8598066a1298, 0xda0484aec3ec6a7911, 0x171e7a21cc9c6a60d5,
  0x32ca1edc15226a3529, 0x145cf99f16b46abb20, 0xf6f74db1148105cb01, 0x6e727166a7040541a9, 0x45716fb70c020582fd,
  0x360df75c9e7e0588c5, 0x4a4d72d3c63e055081, 0x806f42c8f01905204c, 0x189c0d6c46ea05dce4, 0x39429c4e51310529b9,
  0x186b1c27cdc2b7f3a9, 0xbb0e6b665f10b70881, 0x311c6d43fd02b71bfd, 0x2f88c5f56896b726c5, 0xa5846a797d9ab72bb9,
  0xb16a881a46c3b7ece4, 0x196d84a070c4b7614c, 0xb0c50e834c6cb7d701, 0x15f8f3b1f4c7d347a2, 0x80f3017a631fd31d4a,
  0x044cef2fc9a0d38ae3, 0x2aef770a8bd0d3bcde, 0x6c7729bef09bd3a6af, 0x3d2924a24916d3fe67, 0x02014cf5e53ed33a23,
  0xe824f8d489c8d3dd4b, 0x68a70a4b03e1449038, 0x2e176760dc51442238, 0x1e52a74d045044384d, 0x73673bfa1f6544fb4d,
  0x9e3b52e7ec7d446338, 0xd8cd3dce778b449738, 0x710acd0ec20844d04d, 0x1c3d17ff9d3f44114d, 0x073f23ed7494f35974,
  0xc060451484cbf33cdc, 0xacf8197cd153f3c639, 0xaf273fa4117ff378b0, 0xf745f83b1f1df3b188, 0xcd2360327e7bf3bbf4,
  0x95190c068341f32acc, 0x6b0c27ddd2a7f30891, 0xd9a59425671e9337a5, 0x299454f9e2bc93c951, 0x62096f6518b293b33c,
  0x016f43c6b5479389f0, 0x755406336cef933d8d, 0xd20609e4a92e934c05, 0xfad5a5606dfd9324d1, 0xce43d55b80f8930261,
  0x64329b1e8d44736af5, 0x12af09fa87d973f280, 0x8fb8543f2cce737754, 0xbcc3affd02c673d4c4, 0x2e9b53e53e9e73675d,
  0xf953c3de5525739921, 0xb95432657e517335b1, 0x2b09b80b310c738328, 0x6ff1c607f52189b37e, 0x92c6c722499f89dec2,
  0xb584dfcd64dd89622f, 0xbfdfe1f0a50f89c44f, 0xcbe1398540b889291f, 0x9139fa9cf6e9890513, 0x41c784322f1789a21a,
  0xecfaf1bae4a389ccbf, 0x9d25a3bd0ec28ee5bb, 0x4eaefd1124c78e7653, 0x2a63ee81bf0a8e7086, 0xb1fd075c981a8e59aa,
  0x7aeeae57a1098e47b2, 0x43072523f76e8ef35b, 0x56d163dfb9368e1c9b, 0x27a3d154e2ca8e9cc3, 0x198bda0450b1a58422,
  0x2342b85c6478a5d22b, 0xc8288b2fb4b7a5ae8f, 0xaab8fe020727a5cdf2, 0xeafe289a8fc4a50c46, 0xd00dd55d1e37a56077,
  0x35da0d6eac45a59562, 0x57d54279ba4aa56952, 0x46db15f048a6bfd10c, 0x3bf40991b989bf3cd8, 0x6b1ff40f5cddbfe6bc,
  0x77155fc510d7bfbeac, 0x140dc1b42b70bfd960, 0xa9c1dbe2d003bf4550, 0xb5090d5523cbbfdf35, 0x695f1f176522bf49c1,
  0x942537244d2ddce43a, 0x1d6c74a4dfb8dc3db7, 0x467925a656addc395a, 0x857479af017cdc3a6f, 0xc93765619de3dc6e6a,
  0x92f63c6bc822dcbeca, 0x9c3c6c77db34dc290b, 0x949ae4a72a7cada00e, 0xdce4456b4fafad828b, 0xedef9a638fa4ad3047,
  0xa6de2391e195ade73b, 0x979e1a7f8cd5ad1ecf, 0x72239e3ba2c5ad52eb, 0x2d45de6f18a3ad059f, 0xcb1aefb83dfcad1137,
  0x84a0611b9dded9f59a, 0x8c460ad691e1d9ece2, 0x0c3457759093d969ae, 0xfa574642ea29d9a5e6, 0x2b6183f841c6d9b507,
  0x0d0ab4e0bb74d9df5f, 0xabb4a0259913d99706, 0x7383341e15fdd9f11b, 0xe669d1f599ca2ff782, 0x45143cbb85b72f06c6,
  0x5c2e69671ea22f44d3, 0x9b034f9aafa02f700a, 0xd04f1496a1c32f8636, 0x3dd103cfd95d2fc60f, 0x38dd2e589c7e2f2276,
  0xb13cdd9d49b02f88a7, 0x53627eed26aeb4a1f7, 0x03b162ec79c9b49aa6, 0x0f7e49071006b46c7a, 0x9f5b0a551397b4e0b3,
  0xa6bcb1af8f70b47303, 0x6a49bd6f0e85b4fe7f, 0x7bbd5bad80c5b45a43, 0x770abc8a5d72b4d4d2, 0x13c4dd9ea2442e587d,
  0xe48e918b5a0e2ec2a0, 0x93b3a36005332e8130, 0x6241b38846ef2e7c55, 0xcc91c451613f2e2c6d, 0x1cdd79bcc9732e1764,
  0x647941dbd3f92e9bed, 0xb2a38ee5c00d2ee95c, 0xc1e0c531fe19394f46, 0x56c5e136e90539858f, 0x5a6aa18387aa399262,
  0x38a1c9c4735839ce77, 0x96c9594ea409397052, 0x7959a62ad1a0393a2b, 0x80e16a1f6518394222, 0x9aa6e002f36639a7f2,
  0x61b0e472569777bbca, 0x464e64d5786977155a, 0xfc3fb0c5e76f770e66, 0x7c64588afa34778c3a, 0xb8583f20c27f77836a,
  0x9f81efd79ba6770ab7, 0x2ce4810384b4772b0b, 0xacef4e6beebf77f96f, 0xfd2799e03ef43f5cbc, 0x44229a4d2dce3f9f0c,
  0x13e2580b6f0e3f2060, 0x2e582288168b3fcf50, 0xa899360de9753ff7d8, 0x519ab58cc7493fb6ac, 0xffb5279894593fa4c1,
  0x8236e208d0e53ff635, 0x26672d8f093040df5f, 0xf8e97eee22fe40f0ae, 0x3c466764fc514077e2, 0x5956955f0401402a9a,
  0x2b95180c078240f307, 0x7118e91ca54f40b71b, 0x0e7e46dbe8294015e6, 0xef2d56d1993a406306, 0xfd1718e4a382a89987,
  0x26b16159118ca8c702, 0x8f021713ca3fa8c25e, 0xded79674ec42a8f0fa, 0xb296340de8aba8c357, 0x6834b1d814a1a88717,
  0x4b610275f3f4a87b27, 0x1b18d7d29b25a8fb33, 0x2d580c720241871fc4, 0x341ad8bf0a0387c3b1, 0xc0d8b0ac88468730f5,
  0x5e0ceb691e9287fd80, 0x14015889659f87b221, 0x8a4b1a5574d587e154, 0x76b001ba2aa987bd5d, 0x6feb4be9a5f2877828,
  0x5f90b0479fb201ba2f, 0x7dad19cc288f01a4bf, 0x40f310dbd7d10153c2, 0xa19aad30dfb901c413, 0x08b0ecfaaa9301f14f,
  0x62ec9a7361ce016f1f, 0x8210902e4a33016c1a, 0x2b19f3c63e3a017a7e, 0x540187bd0d4ae633b2, 0xf1b5d616c518e6075b,
  0x1fd60f7eff9de649bb, 0x5c90016c7c3de66986, 0x83f8b5f5a8b3e642aa, 0xd40f64cafca2e66ac3, 0x7987f8fba32ae6a953,
  0xc864909bbc2fe6739b, 0x543f7783dbd05ae5cd, 0x52d8e2a5bc375a4d6c, 0x3577deb707c25a7f10, 0x808dd80414385a6a65,
  0xbddead0540315afe19, 0x7ae23ff6c0575a03fc, 0xcfadd6aa89185aa389, 0xbbd68d967d395ab9b8, 0x061aabba9bc9ec67b7,
  0x9150b05ece6fecfa66, 0x6a121adc592dec2b0b, 0x95b012afa063ec09ca, 0xaeab23f27594ecd26f, 0x55d65aa30ee9ec3c3a,
  0x4623d6b8c8f0eca55a, 0xd55a50921f89ec186a, 0xe673f7fb607ea251d6, 0xca3ad55ae137a250ff, 0x67d55fb6a77aa2916b,
  0xc8327335619da27bfb, 0x2ff73a966358a292be, 0xeb5fbfbeab52a2d2e7, 0xc71b32b08816a2def6, 0x80bf1b180710a2d763,
  0x1d381b229d7b32b0ed, 0xba0d05dc407c32306d, 0xdd932ad7d1e232bc5c, 0x5e2a0d77e86932d3a0, 0xcb1b54fc446a326555,
  0x4c05f4ed1a4632ea7d, 0xacf438b4e785329864, 0x0f5493c95d1732ca30, 0xa03091ca4458c451e4, 0xb72b6383fa43c4d94c,
  0x09913ce6323dc4e2c5, 0xa5ae2b5d7202c4b5fd, 0xdf3cf078d254c46201, 0x9a63301177cfc46fb9, 0x36f04fc2f35cc49481,
  0xc84fae9da827c482a9, 0xaeead2e3b62dc9c169, 0xb4a1eaad40afc901e8, 0xecd24a9260dcc948c0, 0x69d08472d417c9f5c8,
  0x53b7a1630970c9c4e9, 0x944af9fca28dc9373d, 0xbaf9d099e5f7c99e71, 0xe284b7610c8ac9d92c, 0x2e7ce88b03bcf95368,
  0x1b5e4a25f79ef9fc0d, 0x5bc789de18fef9108c, 0x624a7c12a073f95d2d, 0xefe86b4819d1f90a41, 0xdb6bc76876abf9f094,
  0xd65c5e445865f97e95, 0xee895cff7b49f99f84, 0x71994eb9b81cd8cd64, 0xf424106206a1d82d5c, 0x498d198b2008d8da6d,
  0x8f1a24cef147d8b330, 0xd14eb584d413d8dfed, 0xccb51a0d4630d8bf55, 0xd219992eca44d8357d, 0x8c108de1374dd804a0,
  0x19912ec24cd035da65, 0xbed19157e1a535bcb8, 0x58dcee43b59d35e310, 0x0a2efccf0b5a350e6c, 0x15f0d14553b1350f89,
  0xca65dc6e59113549cd, 0x54fc65b09fbd3577fc, 0x1a14cec177e8b3bfff, 0x094165369cbdb34ce7, 0xf1650756822ab3cc63,
  0xbe8c140a84c3b3d9be, 0x57ce414a3381b3886b, 0xe607689b8dfbb3e3f6, 0xf5ae8c23d552b3ecd6, 0x1868aeea8627b3d2fb,
  0xda8cb3ec42e903290b, 0x4616d1c9a07003cf5a, 0xe208f6f7606d034d66, 0xa6350895045303b16a, 0x20f68cf27890034aca,
  0xc0b330cbdfd50352b7, 0x87301672de5503136f, 0xbfd1350fffb403123a, 0xd1450f8fc47312cfb6, 0x84b08574ea861279f3,
  0xff8510a876a11246c7, 0xdbe245d972c61217ce, 0xbc0fb07d2d2b12afee, 0xe7104cfaf62612be26, 0xb2d3e225cae5123e2e,
  0x984cd33a3b6812dadf, 0x24a2fea619a7767a30, 0xc0115f90041476b0ed, 0xddfef5ba258d76485c, 0xaef4112dce87764764,
  0xc5f526eceaf07627a0, 0xa45fa291442c760855, 0xd7264303d95576746d, 0x2143f4a9814676e87d, 0xd8b3ac8b458430c329,
  0xef6663735851301111, 0x8f14b3d9551330cb45, 0x40638e1ccd64305e98, 0x3a8e14d638b9303620, 0x0d6cdc29155b30d318,
  0x47ac6cf9d7ab30a6d5, 0x88dc660b7fdb303408, 0x326535778bb47bde68, 0x22fd8e76d82c7b4d94, 0xe3753ead3aa47b6484,
  0xcb2f65c518857bb72d, 0x618e757f78247bc78c, 0x6a35fd2df19f7bbd41, 0xc03e3c46ea947b6795, 0xf33c2f0612ed7b260d,
  0x06398f8a43875eaab6, 0x63df1c9c35615e11f3, 0xb85cd2699be25e2f26, 0x90a13992f8415e47ce, 0x701c5c179efc5e44c7,
  0x2d8fdf770b6f5e0cee, 0xcdd2044c33325eefdf, 0xdd04a19fb3ba5e2a2e, 0x99c20d1d81cbf75c2e, 0xc0a59324f1acf745b6,
  0xc9f513addffcf7eb26, 0x6973f53b688df744c7, 0x970da5954ff3f733ce, 0x1713c27b98edf774df, 0xe9939bdc486df7fdee,
  0x909b736a5892f7fbf3, 0xf2154df3044172d39e, 0x24c18bc55a95723942, 0xac8bc3cb74ad720b32, 0x8a93153beeb572474e,
  0x924dc1a3406b724fba, 0xa6c37399ca9772237b, 0x70439389e617729dea, 0xb4734307a8557225fe, 0x1fb2558e1336fb2ee1,
  0x5889b2bd4cf6fbe934, 0x1855d219a72afb99f9, 0x9b1e6a35ff9afbfd78, 0x37fa89053c7efb261d, 0xb3d2c9c12b56fb71f1,
  0x27c91e6e24b6fb2de0, 0x676afa4e3415fb2258, 0x9dfe061aa1b3f5abc3, 0x5d1b9ffbe456f5825b, 0x6c537367fcebf53bb2,
  0xd49ffe52f027f5babb, 0x1806dbf634bef5ae9b, 0x10db537a5096f5fa86, 0xa0721b8ecdcaf597aa, 0xd0737223e03ef59e53,
  0x4ef476e8ab0a098476, 0xb07dafcf0c8309fa0a, 0x57067daa92f109410f, 0x8e764dbdac810946d3, 0x393a28361cc40964c6,
  0xa028f4d4cbdf0991a7, 0x79af3a3dfc58096136, 0xc74d06e6b2b309e482, 0xdf3b49542c5a52da25, 0x230b3b37503852e715,
  0xc3cb0b396faa528940, 0xb3d9cb363cea5229ad, 0xa2d7a8fbe3b652a6d9, 0xbe46d9a5f2275294c9, 0x10a84679ef9b5225b4,
  0x3fa47808904d491459, 0xd6177ee785fe4907b5, 0x65616ee4ac88497704, 0x8c3bc8abf0d2498d9d, 0xf97e618bcfde49bb48,
  0x59783b717ad849549c, 0xff6ea4a109ce49f1bd, 0x5fc817b2f56849be1c, 0x0c721fb221a81b5591, 0xfd1fbf4916de1b18b0,
  0x8643722556821b8ecc, 0x4738b82e3df91b2ff4, 0x3ca5af9866641b7888, 0xd6b8a5d290621b5edc, 0xc6bf389e6a651b2274,
  0x1caf433fc0751bf339, 0xeb63651522bef628a8, 0x369708a5904af6f7a8, 0x9665a3ea404ef6517c, 0xbd088ae8d923f6e17c,
  0xd06863b18f43f6a844, 0xfb2e976ee005f63344, 0x60ea7c5bd3ee51c86a, 0x736afbfde33f517b6f, 0x651deafef04851283a,
  0x44fb1d4bb1ff519a5a, 0x267cdf8cd529516966, 0x305eca8b970b516f0b, 0x40df5e0c83db51ebca, 0x64ca6a49b0ce51bdb7,
  0xde6f0582f398fe7ff0, 0xf99fbb12ed68fe2105, 0x4015bfd10a1cfe35a5, 0x49bb6f0883b2fe6c3c, 0xe705b886c40cfe0261,
  0x0eb8154b6d4ffe0fd1, 0xeea29fa8b3abfe528d, 0x29bfa2d28d48fea651, 0xf07862e22fc9ba5dbd, 0x558678f71e8dba7d04,
  0x4118a8998ea9ba361c, 0x215286dc9ae3bab648, 0x5e47189c0e4cba0d9d, 0x908347ac8132ba6c9c, 0x9fa852a671a3ba82b5,
  0x46593970b9b87c640c, 0xa7b24ae2bc537c12d8, 0xaf04b28af5997c3ebc, 0xdc3982288ea47c09ac, 0x4c88ea3429697c5b60,
  0x32ea59fc11777c3150, 0x414a88bf16d77c9b35, 0xad82043b50637cccc1, 0x8e9c8b570323c2e9de, 0xca8b6febfaf6c24baf,
  0x27139c4a606ec2e0e3, 0x5afeaf040183c2b24b, 0xb71be31a5966c2644a, 0x31af1b78dd10c2a7a2, 0xbd6ffe6cd7d0c28a67,
  0x02e3133ecb5cc27b23, 0x3d9cff16b4cf119758, 0x58ffe3f1e4bd11881d, 0x6e943a803bc711ddf9, 0x1a3ab8e82978111ef1,
  0x66b873838aeb1134e0, 0x35e3f45714b0112d34, 0xdf739c5a0e31110c78, 0x364034354ba5c84f92, 0xc7cbb9545ee6c832cb,
  0x153b479d9f16c8c58e, 0xd4b9e927755cc8648a, 0xd347cb2f9ea2c865a3, 0x38e940b7afc4c8f21e, 0x315b3b1068bec8ab83,
  0xea345b9ba619c82816, 0x77f9be204b03a6bcc0, 0xf0fb59af66a7a62ac8, 0x2d88e870d972a6dee8, 0xe3f18897bbada680e9,
  0xace8f9532fb4a6c369, 0xbfbed29154e2a6353d, 0xd7d2fb99cc28a6d871, 0x8d59f195f8a3a6402c, 0xa181772bcfd9abd418,
  0x30d3221c358babd011, 0xf9102125fb48abb620, 0xa8878113cb74abd5d5, 0x5b221071a7d1ab2898, 0x0d77d3bc5384abb408,
  0xfe211a8694d2abba45, 0x681a87e1aa42abea29, 0x1684c9f52556cf132b, 0x582c88188531cf2062, 0xbda68423cbbbcfad52,
  0xc38f5eaa935dcffd46, 0xa05e51eb3443cf878f, 0xc4512cc20883cfdb22, 0x1188a680715acfe777, 0x45c98f02b5d4cf17f2,
  0x720b528942a3950eae, 0x906e5b41d353953e9a, 0xac560b85316b95191b, 0xc5445706a1ec957de2, 0x9157bc0f2f6a95b05f,
  0xdabc6e1df414958406, 0x6d5b56af82f3955f07, 0xad524463586f95aae6, 0x8f58778ce8d90caa42, 0x0e190f755c980c66ea,
  0x0b85195fa7080c06fe, 0x4f9a70c6d41b0c9d9e, 0xfe0f9aa8e3820ccd4e, 0xce5a85b26cdb0cd07b, 0x73775ae5dafa0c3432,
  0x8670589392fd0c72ba, 0x3e1ec538e7967a7dd6, 0xb6827c09300a7a13e7, 0xebc5d25790377a95be, 0xa2d2a6358b5a7a08ff,
  0x197cc6b1b58e7aa463, 0xa0ed1e58921f7a21fb, 0x2ac6edf6264e7aeef6, 0x52a68236cd547ae26b, 0x1134d9f17280786b1e,
  0xebd9e937601578fd92, 0xaa86cde62e4a78ef83, 0xa5cd98040679785e8e, 0x2798a4b6d8547808a3, 0x5ca40ba2c5107876cb,
  0xe8e9869bc95d78f716, 0x660b34d3eec778d68a, 0x7f544d87f14106e696, 0x075f54ba2e4c063356, 0x6abbfe21beae061a3e,
  0xa74d3863b95e06ceab, 0xb4fec28ae5ed0668d7, 0x85c25f7cd3d706d03f, 0x14ffbb4674ec068612, 0x9038ffc99a2d0639da,
  0xde809142360ee705e9, 0xff16970cc298e710c8, 0xe1142f86c97de72dc0, 0x889780406bfee7202c, 0x0b9137fa92f8e789e8,
  0x7137140109b9e75869, 0x627b16b2d712e7ed71, 0x502f7b261aa1e7c33d, 0xc6e62268bea8deb31a, 0x1b22b09806b2ded72f,
  0x88457074df0bde8013, 0x8b705de5f7e0decbbf, 0x65b0770e31fedeb74f, 0x4977457195e7de6f1f, 0xd9b5e642ba25dee3c2,
  0x2b5db5828e13deca7e, 0xaa47172725fb18e48e, 0x3992472aa936189c83, 0xbb95b9eab831186b92, 0x160b95194fb7180c1e,
  0x5ab992f66005183c16, 0x9db40bc27f1018068a, 0xe649b46c12f51868cb, 0x1f1749be76b31855a3, 0x04d18a96fa1f3eccbb,
  0xd38a25a28d7a3edac3, 0x0541d14e28b13eb55b, 0x6e4f41c747813e84aa, 0x23ac4f380f5c3e3253, 0xa02597df0beb3e1e9b,
  0xca75ac7e88bb3e98b2, 0xf597751a94673ead86, 0x7db6acf805402b19a1, 0x8b2fae0c43d92b5da1, 0x86dcb682a7012b7c99,
  0xe416031323e02bbbd4, 0x5b032fc617de2b5599, 0x59ac160bc5712b95ec, 0x1279dc3a4e8f2b09d4, 0x84ae79b95e732b61ec,
  0xa3ea512835206ba542, 0x8551e8d7abf06b4832, 0x950eea0f86af6b0cba, 0x341ef1b547bf6bd6fe, 0x24e039a701416b334e,
  0x69f1e0533e3b6b1fea, 0xb8e81edda2226b167b, 0x72390e07c2f36b669e, 0x9a40a78ed809a03083, 0x6633d7eb687aa050a3,
  0x2ad7bccaf73ea0edcb, 0xc32d40dfb8c4a05e16, 0x39a7331f1d4ea0288e, 0xd3bcb4d4def5a0258a, 0x2f862d58cecfa00c92,
  0xd0b48643f25da0721e, 0x3314d4f9179e3c6adf, 0xf4d4916454623ce62e, 0x603e14ffb0883cbb26, 0x8491aa86f21b3ccdce,
  0x0eac3e98ed263c46c7, 0xb9a3f65134293c6bee, 0x42f6acefc1403c4ef3, 0xd6aaa3fe191c3ca5b6, 0x914205204f0fb8862c,
  0xe926c1695b6bb8eee8, 0xa41338dd625eb82e71, 0x7c0913e2cafcb8583d, 0x89052622bef0b819e9, 0x703842f227cdb85cc8,
  0x85c13a7feb34b8e869, 0xdc3a0961ce77b80bc0, 0x1e5821eebe48603569, 0x0e23904f0433603ec8, 0x7d213640b8516034c0,
  0x65364c886c2660ea3d, 0x0d905d5b72e060952c, 0xbc8d58ff61fd60e3e8, 0x755d8d59b64d60f1e9, 0xcc4c23f4cb3c603271,
  0x60e31188775b4da63b, 0xfd117647b3e44dbdeb, 0xbc15e32b56e04d809f, 0xe1f715f86b4f4df38b, 0x08a5f7333e504db10e,
  0x597654015ece4d87cf, 0xd8daa5840f624d6a47, 0x4954dae796a14d7937, 0xd5c7f9f09b8dc5b626, 0x3bf99d21a876c5abdf,
  0x9fcfe0a30585c531b6, 0xb4e0dfecb96fc5f8ee, 0xdd9d88066cd7c5f52e, 0x2288cf200c07c598ce, 0xad1ec7a7d891c544c7,
  0x97df1eda3795c538f3, 0xcb80686a96ec913970, 0xa78e305e3de291caa4, 0x8dd18e9c3f2c918b14, 0xa9d474e9eab891c824,
  0x2830d40f1bcd9164d0, 0xc5b6d120d0da915785, 0xd568b6904d95915049, 0x7074806ff8899142f8, 0x24eed49fdec5ddfe09,
  0x7f80eed7be76dd52dd, 0x0f756606015edd9309, 0x3bd43c6a7e22dd9d90, 0xcd668c2c5790dd0490, 0x948c808d71a7ddd831,
  0x89c475ba4a32dd3ddd, 0xbf3cc4e27317dd9e31, 0x826ecb3adf64981133, 0x0ccd6e8c245f98dd87, 0xe720020141b2984c27,
  0x881820dbd01298f502, 0xfe02cdd2540898045e, 0x9eb41868212698ae17, 0xf47eb4a1c37498ea57, 0x75cb7eefdc5998adfa,
  0x588a8c1524f1aa7246, 0x430374279478aa9022, 0xe87491c81ca5aa8662, 0x39ce8a02c61faa47f2, 0x838c034abc5daa1e8f,
  0x2391e70585eaaab877, 0x3863cee69f18aa212b, 0x52e763fbcc36aa0e52, 0x6034c84f0fff48ae03, 0x25927e3f7b594824b3,
  0x51c8d78bd04b48a5a6, 0xd267924df1e448c143, 0xeed752d8911c48e2f7, 0x7d7e348f43fd489dd2, 0xfe52ba822ad1487a7a,
  0xabba672bad7148a37f, 0xec18ccdc4eb8e931a6, 0x4c57d9695df7e93743, 0x0352b90fc4f2e927d2, 0xa3bde5f33e1de9817a,
  0x9ce5576d4dace9e07f, 0x89ccbd328885e926f7, 0xd5b9186bfef0e91c03, 0xc0d95294d290e993b3, 0x1e7205501dee5fb539,
  0x5b05afd1a0c65f3ecc, 0x4fc2946279015f83b0, 0x829411d82c085f9074, 0x9811d56852d25fb6f4, 0x64d515f922495fc5dc,
  0xf8afc2b24c335f7c91, 0x8c157247d4d65fc888, 0x716641501fccd14e3f, 0xdb16f04ba5bcd145da, 0x016c69735dc6d1f596,
  0xabb6a313361cd1543e, 0x82416ce5ed3ad13b56, 0xf9f0b6442c8bd12012, 0x48a3668fa4d8d1a9d7, 0x33691684b412d1c9ab,
  0x869bf7fd6e597db6ca, 0xa1949be4a62b7dad66, 0xeff7a25122487d6d0b, 0x5006c38f70b97d5e3a, 0xe7c3944066017da06a,
  0x1eda38f889657d216f, 0x25a2daccf6607d7eb7, 0x479dc5ab5242b22790, 0x65c5b726aea8b27631, 0x93899d25e3e4b2a309,
  0xdeb77fe5eb68b296dd, 0x01f189cc362eb2bddd, 0x98045eef3ddbb2d390, 0x085ef10dac33b23231, 0xfe7f04d15312b28a09,
  0x56f885c29866195fa9, 0x398529c4f2021907fd, 0xc8ab8d544435198be4, 0xbe8de48ea90a1991c5, 0x3122abd003a5196db9,
  0xb6adf804412a197c81, 0x9be4ada03a7a19cc01, 0xb65bb45ae73956f892, 0xcf17a8c2c02356f78e, 0xd4a8ba362eca563fa3,
  0xfb2d5b056b1956af1e, 0x45d9173e9ebb567483, 0xf5ba487a288e56a9cb, 0xc1b4d9dfd58056c516, 0x27482d66012a56d18a,
  0xe07b6c407c3a74a445, 0x9e6cae7d9a5974c129, 0x133e7b64110b74eb20, 0x98aeb3d2baef74c9d5, 0xd9973e1e3bd674c598,
  0xa103d4b9894274e908, 0xabd497715ae1743811, 0x26b30329a586742718, 0x2980411be6f9eea27e, 0x5f3e63d80947ee811a,
  0x50f6dcff9a8fee434f, 0x51698049c5feeed7bf, 0xc663f6a8c0f4eea42f, 0x5b413e84cbd6ee89c2, 0xccdc311c204bee6d1f,
  0x263169ab9b48ee1913, 0xfa18ba0d4a60cc05bd, 0x82a03bf4c7d8cc091c, 0x3a96925115eeccbe48, 0xe4a7a0307013cc919d,
  0x65ba563f970ecc4c59, 0x4256a71c542eccca9c, 0x5092183c8526ccdc04, 0xd13b964bae8fccb5b5, 0xc8657bb7981016b2f9,
  0xbd3069d0bc45168458, 0xe8eedd52d29b164834, 0x9dceac56e0bb160be0, 0xa27bce5a6f181685f1, 0xc169ee19280a16e21d,
  0xd3dd65f521be1676e1, 0xb0ac30c370cf167278, 0xbe42949a59b69be4a8, 0x4adbbf45842f9b12a8, 0x7932dba08a5d9b1744,
  0xd3fe767ad80a9b1ce5, 0x3dbffe3520d09b037c, 0x279332ca9e679b1ee5, 0x5294933792fb9bdc7c, 0x16764256a3199ba744,
  0x394f0783b22a6633a2, 0x19077554900466064a, 0xc1a34fd353a066994b, 0xc27b74ebd5786624e3, 0x1adc2b0970df66b8af,
  0x5c74dc3d5111660bde, 0x02757bc7491066d223, 0x672ba37acc4e668f67, 0x3dce97d0e5eb31fa52, 0xcfe7a30282c23198f2,
  0x183cdcbe4819311c8f, 0x4efcce4387e831d577, 0x5aa33ca50fb731af46, 0x1197e7100683314c2b, 0x05dc30d3bfc8312222,
  0xea30fc781e15315b62, 0x32303122fed769ab47, 0xd575798d7d9269603b, 0x7c318c3bc7bf69c80e, 0x778caa72f86b695f8b,
  0xf2792e17caf76967eb, 0xba6c30a60ae269d037, 0x902e6c5312c96973cf, 0x34aa756d6e2469f19f, 0xd1a9df73fc441c9cf5,
  0x3c6bbeffae861caf80, 0xb9ea6b0c021b1c27c4, 0xd8df8962e62e1c3d5d, 0xfea67a08da4b1c0354, 0x487aa93fbd8b1c5ab1,
  0x29bea6bc454f1cb128, 0x1389ea7594641cdd21, 0x6c40a4eb8ce83d29ad, 0x4a4640156bd33dbfc9, 0xe6334616ab9b3dd1b4,
  0xc1a4b9cf6f313d7f40, 0xdfcd62a26a583d9c25, 0x4eb9cd353f113dce15, 0xc462ba5d25ca3d9e79, 0x99670b915ada3b3757,
  0x2402331481bf3bd45e, 0xed0b7876d28d3b7117, 0xfc785b2216c53b1002, 0x6b33a0288fb53bf487, 0x53e5676a7d633bfafa,
  0x41a0e521f61d3b4e33, 0xd55b02891bdd3bf927, 0xc46fdb78695d43924c, 0xcfdbda23e1aa4329b9, 0xeb2628c7d85743a1c5,
  0xf628ff6e7b1a43a401, 0xbeffaf27828e433f81, 0xb1af73d4179d4307a9, 0x83da26b346e84303e4, 0x9a736ff1f80243c6fd,
  0xb9875d1b1765f89ffe, 0xfa5d24eec747f8d4ea, 0xe75887b2b342f8fb7b, 0x71ec58cc9c0ef8e932, 0xe05aec3cea40f83142,
  0x9324453353c6f83b4e, 0x5bad5afe204ff8afba, 0xfd45ad82665ff8049e, 0x47dd2f88b4de65c5d8, 0x7daa41e42acc6536ac,
  0xf8d4ddfe10b265f5bc, 0xfa41d4a8554265bac1, 0x1b2ffc3f114965b035, 0x9e3763264e51651550, 0xf9fc37486dff656160,
  0x4463aa0ee960651d0c, 0xc3ef8d5671399a4062, 0xb112ec09b9c49a738f, 0x798d60f1acc19aa677, 0x350f12cf8a439af246,
  0x6760221149b69a4d52, 0xb7ecef667ca09a6322, 0xfb224b8ec06e9a7b2b, 0x154b0f021b9d9aa8f2, 0x7cccb1bf8470a41359,
  0x28a86e2c4d14a4a19d, 0x9440a05e73fca45104, 0x7b674077317fa4eb48, 0x63b1a887b3a9a4819c, 0xada0cc9136b8a4c4bd,
  0xb56e98dd1076a4b61c, 0xc09867d51e24a45fb5, 0x79bc175865fb676015, 0x3e98464e30df6764b4, 0xeababc156d9a67e340,
  0x5de5cb80d6a2676879, 0xcacb98117feb67d5d9, 0x9b17e57ada37676a25, 0x1a86bab6e4c1672bad, 0xbb468639af66677cc9,
  0x2c62966ffa872d937f, 0xc9486e72e0ad2d7103, 0x24576241e69f2db37a, 0x0686677c3a632d8fb3, 0xec6748a319af2d66d2,
  0x14968670c45e2d5843, 0xe34957a90dac2d88f7, 0xdc6e497716a62d45a6, 0x516fc24bc08cdb87db, 0x082a32bc2f12dba02a,
  0xefb8111e245bdb6b72, 0x33c1b8eec8f9db16ef, 0x30116fd9aa29db786e, 0x0bc2066896fadbf693, 0x0c062ac699e5dbed97,
  0xb232c1aba6d1dbe273, 0x2523f359663a9edfed, 0xe5f3812646749e9455, 0xf95d99687a449e377d, 0xf40fe6499f889eb45c,
  0x7399230bd51e9e3b64, 0x62e25d7d92659e9c6d, 0x3ce6e25135ff9e9da0, 0xe0810fe7b7989e6c30, 0xb1d887c3d9d48113fb,
  0xc787e416a60a8103d6, 0xbd60f3bb986c81266b, 0x4af3502f6a7e817be7, 0x09e44c3ddbe8815bbe, 0xb34c60eadcc1817cff,
  0x3eb5d8df91388189f6, 0x0550b5c81b5c816263, 0x5893729dde181fb24b, 0x02533a8ea4c71f1423, 0x7a7d6f360ef61f60af,
  0x3eda7d7edc4e1f34de, 0x966f93b3bafb1fa367, 0xaa725fc8dde61f17a2, 0xf15f538184d41fd64a, 0xd33adabe4bb11f8fe3,
  0xa779cea9bd4c414af4, 0x06ceaa2142ba41e4dc, 0xf3087932ef7c41db74, 0x5eaafd179d9f411888, 0x6b6608d7d05341a0b0,
  0x92804f1db1b541c7cc, 0x724f66993a3b415091, 0x87fd80bfd689411b39, 0xc1abe2a073cf45d962, 0x16e24bb7aec345c977,
  0x6ee477bb0b8045718f, 0xd090603e1db145142b, 0xf177abd45556459722, 0x3724e439a305456b46, 0xa56024025f044533f2,
  0x0a4b9038622f45ff52, 0xe0d5a2506ae771ec54, 0x2bbbd5b9aaf8711828, 0x0ba2760857e17137b1, 0xd2e3c1017cd1719921,
  0xe472bb0e8540716b80, 0xd6769b1ce244712cf5, 0x689be3cc8ed8710a5d, 0x48c1724f02827166c4, 0x30cb5229f01cb90f7f,
  0x01a40a2ee273b9fcf7, 0xe72da00c8afab98703, 0xe1962d93f1f8b91fd2, 0x8f0acb1b5c64b9547a, 0x1352950e053cb9ea43,
  0xd69596652142b9a3b3, 0x7da0a45111ceb9cfa6, 0x3d9e8d15483558ff6c, 0xca8d50f61d7e58dcfc, 0x0964e2bd8bcf580bb8,
  0x37ec01f1411f588910, 0xc4e29e9d7b11582c65, 0x397064317f83588a89, 0x96017043d9aa589319, 0xa250ec1842fb58cccd,
  0x14d6365e2e320ff905, 0xf04b45c92baf0f8fd1, 0x8929190782cd0f75f0, 0x6d50817b88b40fe751, 0xcb36299478dd0f543c,
  0x2045500696ae0fc3a5, 0x5381d617a26a0f7e8d, 0xb8194b6143f20f0261, 0x0712ebc08c7621a10d, 0x89de10f0d2ba212584,
  0xda58f8e9051d217e41, 0x9f101246c355215295, 0xd7eb5028b1ae21432d, 0xed5058dc513421ee68, 0x92e6dee356a3212a8c,
  0x63f8e6a92e9c210e94, 0xb45af8af020785c2c4, 0x32b0ded7f5ed85965d, 0xa360817c30b8855154, 0x7bde5a7f080685b221,
  0xc5f836f01c20854f80, 0x6f366034156b85c828, 0x1d9eb0aea1468574f5, 0xe9819e9467dc85c1b1, 0xade7aab8296ba3fed1,
  0x6f65b34c0de9a36051, 0xe32b80f35fa7a301f0, 0xbab62b7ca099a37a3c, 0x95aa651d7e85a3eaa5, 0xa680e720b7afa30261,
  0x89b325cdca9ca3bd8d, 0x2125b628d8a9a31305, 0x4edbd5c7d6c815f92b, 0x5d7d9c9d3f6e155922, 0x78f77db62df115ac8f,
  0x31d5930241d3153bf2, 0xfb26b8191c35154b77, 0x7eb8db16d7be15f052, 0x379c26b1ae9a156162, 0xe893f745e08015f846,
  0xd29135bc6d4d089560, 0x0e0766337cdb08d7c1, 0x5fb69150386208b035, 0x0c66dd93e6b2082abc, 0x98ddb6a12d01085ed8,
  0x449731fa344b08c00c, 0xd835970d23e108a550, 0x8b310712f5e508ebac, 0x7e6d8f1aa4119d2467, 0x9af2c656998e9dcda2,
  0x0289f910d7f59d2123, 0xa2516db64db09dceaf, 0x43c689b342279d254a, 0x358ff2c2756e9df44b, 0xd4f96abbe7189dfee3,
  0xe66a51bd77169db4de, 0x3753f47e7bb038b434, 0x5a4d53b7129638a11d, 0x04f4bfe6f92f389ee1, 0xdf71da58faaa38f878,
  0x8113d5ea29c8381cf1, 0xd4d57118a33638e9e0, 0xb1bf13c4cd5c38ddf9, 0x52da4d792d39386358, 0x34d3d67652f0229b93,
  0xbfe69eb4bbc522182a, 0xdd9e582cce9f228873, 0xdc29d3a6d128221cdb, 0x6bd6e607b2d7226897, 0x175860e36e7b2211ef,
  0x9c4e2920a56d22b16e, 0x6a604eae8f6122fd72, 0x6855ea7ddc48d2e368, 0x64c7c5445a08d25795, 0x865c7f018393d2e68c,
  0x5fc5bed128d8d2910d, 0x757fc74d1462d20684, 0x49be55e45671d2192d, 0x42f25c2e32efd26994, 0xabeaf2bc5d25d26741,
  0xc7a744386ab05706b4, 0x1a49a779010957ced9, 0xf6a8a48130e857ab25, 0xd034a8c3552357d515, 0x43a449f19fb357a979,
  0x5ae534aa29a5577540, 0x5420e54af737576dad, 0xb64420454f045750c9, 0x123efc7d58fa681fa0, 0xb28a3ecc1d2668345c,
  0xd616074227d2689bed, 0xe5fc80e19550686a6d, 0x49076ca146ab685555, 0xfe6c8a4b43a8681a30, 0x1edd1648a67168a764,
  0x3a80ddd85444685a7d, 0x4a9248c1a6456e7292, 0x1561a8c776b66e2c83, 0x9dcde5bbed1a6e94a3, 0x23bc9280f8056e4f1e,
  0x9aa8cd6664116e8c8e, 0x374861b0cef16ee416, 0x8ee5e9813c5c6e9ecb, 0xc2e9bc04533e6e1d8a, 0xbcac80c63b504f1dfe,
  0xfe350312c3864f9a42, 0x4b37acf481844f387b, 0xe0a331987f5f4fa74e, 0xf831f01b27824fc29e, 0x40f0358f610c4ff2ba,
  0x1c0337626aff4fb432, 0x4d80a3012a334fd3ea, 0x433ff3785fc71a4963, 0xbb12215242ea1a86be, 0xbeb53fb62c571a14e7,
  0x6e9e85c140661a3afb, 0x5c851279c9671adcd6, 0x8ef39edffc111a7ff6, 0x964bb50947b31a0d6b, 0x6c214be803c31a55ff,
  0x2c4b23ace095904f72, 0xa75a4b53b1149038ef, 0xda232992156d906e6e, 0xf2641041b2ba902e97, 0xddd85a6ae70690a173,
  0x032927c925f7901edb, 0xe92764323d69909b93, 0x9410d82d095e90832a, 0x17ff11970bc59fe7ab, 0x89a2ff85b7079f1096,
  0x22114da645b49fcfda, 0x2d931fa3cca99f2ed7, 0x411ba2d768219fa856, 0x7b4d094630779f5b12, 0x2c09934c4aac9f813e,
  0x871f1b5527ba9ffb3f, 0x9c9d59acc1772c1611, 0xa71cca4ce5da2c4bd5, 0xe2519db4de972c0b08, 0x91ca516f31202cc218,
  0x6159c787479f2ce498, 0x24d27a9550142c6245, 0x7bc7d206792d2c0920, 0x767a1c03a5902c3729, 0xd78ba5ae86c9532b1f,
  0x7c9b8b70cf8a535d4f, 0xe2a54d6ab0b453b713, 0xf32adbedeb3b537a1a, 0x6d055fb5c71453817e, 0x955f2a63cc1d53eec2,
  0x034d05cb3c0f5362bf, 0x41db9b17259953e52f, 0x4db1cb88bbe762b7bd, 0x1b78a7b22a2e624a1c, 0x50cbc86522ff627b59,
  0x84c8cd73ca9e62a29c, 0x64a757ce87936241b5, 0x0895b112aea162ec04, 0xd257957d3901620948, 0x3ccd78ef69f962e29d,
  0xca4c4b376d6e23acf1, 0xe870de80c55223911d, 0x57ab7038b9aa234258, 0xc24b8778934a23bce0, 0xd4993f5c7bbb23ede1,
  0x563f4c05333e23f4f9, 0xc3de99673adf230b34, 0xf687abeaf0a523f278, 0xa8c2f7746759f46690, 0x8fe3c2647f8cf42409,
  0x3ff705888598f4ed31, 0x502843a18747f4a931, 0xe0531fd6893cf40f09, 0x331f28300a84f4d490, 0x750553622f9ef47edd,
  0xee43e349b6d8f457dd, 0x5e2f2592fb9cfc7e85, 0xed663034e8d5fc7824, 0xa4c42e2cbd77fccf70, 0xf77466245f3bfcd6d0,
  0xe2253eda506afc7d14, 0x173e74c5528dfc7aa4, 0xb82e2f22ff61fc3f49, 0xad30c46f0c7ffcdbf8, 0x31fac0a57578e89389,
  0x43a1a9d41323e87465, 0x57a98845b4c3e8706c, 0x3d7ffa5d9215e82419, 0xebc0a152ecaae8e9b8, 0xb3887c9bd10ae88bfc,
  0xc1517f805fd3e8ee10, 0x817c51c82216e8d7cd, 0x2268b3e3e4a6f071cf, 0xd7b374c9678df0fb37, 0x6b1668a77a28f00aeb,
  0xb8ee16e28b20f04b3b, 0xe931ee6db10ff0b79f, 0x7674aa9093baf0ef47, 0xec3c31af0cf2f01b8b, 0x55aa3ccd5c94f0780e,
  0xe937fd6b02f3ac04c4, 0x2db32e7c3d77ace8b1, 0x4c753753501dacf421, 0x9f2ef6852646aceff5, 0xa9f675cb5c32ac7e5d,
  0x6db6ceb4cf72ac5628, 0xf7fdb6ad7195acf880, 0x24ceb3bfaba6ac8b54, 0xf1bacc051d81bd3279, 0x112d47e8bf16bda615,
  0x364461310cc2bd08c9, 0xb047ba6cefc1bd3025, 0xb3cccd23754abd60d9, 0x2acd44d0daf6bdc0b4, 0x35492d452bcfbdde40,
  0xca6149bbc55abd6fad, 0xe57a6a607e26fa4e37, 0x50395e47e665fa180e, 0x7d5ecffd72f8fa418b, 0xdbed7aee284bfaaecf,
  0x686a3942a3ccfa9c47, 0xb9cf7f297893fa5d9f, 0x0cd0eda81a8cfa57eb, 0xce7fd00d03d9fad53b, 0xf0712acd2ee22844c7,
  0x34fe9b03bc6d284fee, 0x1d15fe0fb7ae289ab6, 0xa62a3a70df91283626, 0x229b712c5a2028d0f3, 0x991f26c01aa428c72e,
  0x63261561fdb528a8ce, 0x8ae8e1f73792f21542, 0x87e1eabaef69f2bc32, 0xe91cb7f39894f264fe, 0xd5ea1cdd5490f2797b,
  0xafcffa411fb5f2d49e, 0x0f8fcf17de07f2a84e, 0xf0b78fe38ecdf2c2ea, 0x61fae8245b72f2f8ba, 0x51eb87fdf15b2980a1,
  0x4077eb5f3bee29bf99, 0x42854e48281c2920ec, 0xe136854fb78629c4a1, 0x3c4e77f916fe29bed4, 0xd9ec361bcd75299499,
  0x8c23ecd27993294ad4, 0xdb8723bcf71e2992ec, 0x2f700c9d07f55d5581, 0x9b12705613ca5de501, 0xaa90effbdc155d6db9,
  0xa00c871f47d45d1ba9, 0x78efe2a244375d7de4, 0x4ae2123eed675dfcc5, 0x4329906e4df15d5b4c, 0xcf8729806b025d41fd,
  0x2c162b95396f97186e, 0x9cce1685fe20970c72, 0x772bd4d5d6c59771db, 0x558e2ee94af7976e2a, 0xcd35ce7f834c97d0ef,
  0x72258ef3f4cb979e97, 0xb4d425ed67ad97df93, 0x992e35da4bc0970d73, 0xf59ead52717aeb44d3, 0xdf770caaf278eb690a,
  0x8312991fccf6eb26a7, 0x314c12beae43ebc0c6, 0xd0999e376a96eb6376, 0x3ead64c7dda2ebc582, 0x676477155b80eb5f0f,
  0x110c4c570de8ebd936, 0x3e32ff96ae1abb46d3, 0x16721352915abb9536, 0x5cff9f10b26cbb1282, 0x7e9f8b3120b7bb070f,
  0xcf13f7eb1e80bbd6c6, 0x23f432eaef67bb5976, 0x56f7f466a4dfbbfca7, 0xb08b7239f818bb0e0a, 0x8a024721b35517275e,
  0x7247c8c5fe0717b287, 0xc9d902e38299171327, 0xe2a0d99723f7173e02, 0x32bca0ed3afc171e17, 0xb5c8627bb09f171633,
  0xdd3dbc8d376a175857, 0x89623d9c512217fffa, 0xb05efa1821b3f1ba01, 0x09faf2d41be6f16581, 0xb6a15e2a2ebdf10dc5,
  0x6e2ca18146c1f177e4, 0x15592c168b45f12bb9, 0x83f21ed33b1ff1b5a9, 0x5d6d5956ad80f1954c, 0xaa1e6d054f02f15ffd,
  0x81032bbbaddfd4d5af, 0xc38afd27e356d4994b, 0xcffd4118b2f5d4a8a2, 0xc7300352e138d4b9de, 0x0a2b8acae523d4e067,
  0x5d41eea2229dd49f4a, 0x1f143036b8c8d40fe3, 0x02ee145c62e6d4f923, 0x23ed59782480df3b44, 0x677c8f586111df777c,
  0x4ea984c80fc4dfcd44, 0xd4e0eda26852df71e5, 0x668fa9542e3ddf73e5, 0xbb597c31dbebdf8ca8, 0x098455aa4236df3ca8,
  0x0a55e05a9538dfec7c, 0xf4572d88c13047e857, 0xc6b1a413dfd6473833, 0xd82d832e4c0d47ac17, 0xf83bb13c0f1b47dd87,
  0xa1839242fbe4472a02, 0xeea457ab03844770fa, 0xce9202de07b2472127, 0x93023bf9a265479d5e, 0x6ca1559b2567ea7dfc,
  0x1a55e1789079eabacd, 0x7eeda19a2dc1eaad6c, 0x52890e1920a5ea0f19, 0x361d883d7731ea34b8, 0xaa0e1d15eec8eafe89,
  0xc3e189c41b27ea7510, 0x0588ed663a4eea3065, 0x760837ec7d2d140168, 0x53ee8e7013cb14d684, 0xb58cb69fe4a9140d0d,
  0x953eee89c80f145c8c, 0x2c374fb4b706149641, 0x904f3e329e6a14ff94, 0xa4b6085e838714f12d, 0x1d8e8c46e8bf140a95,
  0xe5bb948c781e3a802d, 0x9e94c151770b3a7f68, 0xd1f5f74437503a9695, 0x59af2ad8a9303a7094, 0xc6f7bbd6c5683a8d0d,
  0x0153f5fa21cc3a1d84, 0x402a53eeb18f3a8e8c, 0x74c1afb9c4643a3d41, 0xa8fba6d80a138236f4, 0x716bb7080601824139,
  0x0c9d55e52375826eb0, 0x4ff29df47b98829491, 0x1b55fb2e9c3f829774, 0x25a6393a63cc8228dc, 0xe4396b33d3d182a088,
  0x40b7f264785f8210cc, 0x0b24d3fed768d676d7, 0x8423ade739b9d6aada, 0xee81701cc41bd65c96, 0x13adeb44dae1d69512,
  0x47702342e93cd6b8ab, 0x74eb24d2b671d67a3e, 0x5fb5816232f9d61756, 0x1ed3b5659d49d6163f, 0x7c125dfc1e3b996831,
  0x535ddecbbbed9967dd, 0x55e419911ccd992e31, 0xe31901a409a9990add, 0x8ade27c075f799e009, 0x1727e49cbd9799c290,
  0xa7d312da9663991f90, 0xa301d31dee28998f09, 0x88bf9b12c92b8b7066, 0x5b9b284fb1848b2fca, 0xcec1bfd9d4de8b566a,
  0x3f9fc1e0ad0b8bc53a, 0x44119fe7180e8b315a, 0xab2854e190bc8b6d0b, 0x1c9c110c7f088b4c6f, 0xd1549ce5f64b8b57b7,
  0x7c3e6834be2863b12a, 0xafd13eb5f4a463d897, 0xec2b66b8645e6373db, 0x6a792b61cf6f63836e, 0x2d66d1a90a7063df93,
  0xdae77987939263f872, 0x3b37e789182163fbef, 0x9968379c601d632673, 0x0b8af6e1e9298cf2ee, 0xf466fcd6a2498c102e,
  0x4b8e7b4db0a18c0926, 0x59fc315b6b5f8c3bce, 0xa87b66d2a7d88c2cdf, 0x64318a935d1e8c15b6, 0xfaae8e47a90d8c46c7,
  0xdbf6aeabc3d98c23f3, 0x94df516915247f804f, 0x075c5976b6a77f541a, 0xa451cf87d9d57f291f, 0x20825c9062067f01c2,
  0xfccf0edaf6347f4313, 0xf359df3bd6dd7f492f, 0x770eb7d7128a7fe5bf, 0x6fb782412a4c7f6c7e, 0xf6e1f215fd6e4a4d0a,
  0x23f2d2678d374a9236, 0x785eb2d3d79b4ae2a7, 0x79b2a9c1303d4adb76, 0xe6a90e7e856c4a46d3, 0x2a0ec03ef4814a3c82,
  0xa5d25e2f735d4a25c6, 0xbdc0e14595054af30f, 0x78d6229b48b610719b, 0xc722deb3555210f086, 0x16850cd08af510ed53,
  0x180cf32a336c10dbaa, 0xb7f364795e8310415b, 0xa2de859626be10a8b2, 0x6624d67a9154102cc3, 0xf4a9e874d5d6849173,
  0x30a6d0738ad9847272, 0xabd06d869a2b84a06e, 0x50c7a9b9363c84c82a, 0x47e8a6de56138423ef, 0x8b6d04e7061284aedb,
  0x4f1dc71bdd62843297, 0xbc041d9e7eff84b093, 0x6035aef41a59fd117b, 0x48aec482cd3ffdc0fe, 0x8f8aaa47891bfd174e,
  0xffc48adef5a8fd27ea, 0x9337dce4c15bfd4542, 0xd96937e095f8fd6bba, 0x0caa695fd3c6fd1f9e, 0x1edc35492c4dfd2d32,
  0x03cfc6f73ecb55bbac, 0x4684cfad0bd555d60c, 0x70c69dcd3f9755e5c1, 0x07bea19479ba559b35, 0x76e8849138ec55aa50,
  0x729db2a32a99558ebc, 0x17b2be8d48e355e4d8, 0x21a1e8e929f0558660, 0x67e34d809539c1a319, 0x9a4d9fcfde56c1e089,
  0xb69f0d0a0345c1b4b8, 0x6c947da0634ec1a4cd, 0x812694df643dc151fc, 0xbd32263134e8c1696c, 0xea7de3198266c10110,
  0xbfd956c57191cbe104, 0xf733b16aff7bcb889d, 0x140ad9ecaa89cb3648, 0xf3b147dde632cb2f1c, 0x1d470ab81c0fcb1bb5,
  0x55e56e9459adcb3a59, 0x7056e5fcebd5cb80bd, 0x976e33856cedcb1a9c, 0x3b715414626adae7d5, 0xeda271ec3963da5829,
  0x8d548b6d4595da0418, 0x4cf53a1d4e34dabe20, 0x2cc2db87e803da2311, 0x20dbf5aea8c0da8c98, 0x918bc2e97590dabc08,
  0x8a3aa2926521dacc45, 0xc768f00a1c54b644d3, 0xfbfd7bbd88c1b65b36, 0x10f0252a997ab62882, 0x5225dc394019b6820f,
  0x9a7b8c0987f1b69fc6, 0x11dd685ada57b69076, 0x6e8cdd0462b0b6a1a7, 0x9bdcfd457256b6ad0a, 0xf2bc67e35924924dae,
  0x8778bcac457292801b, 0x69674422356d929ae6, 0x6ab9839fb221924206, 0x6fd9786b5f4192c607, 0xf744961d26dc9251e2,
  0x8d96b9a3369c92f65f, 0x6383d9b5d48992e69a, 0xa569259ae36e372489, 0x5a037505f304375310, 0xa29108b0069637ecfc,
  0x67689139b95837fa6c, 0x577569f15b4537e019, 0x4a25fc7e51153748b8, 0x5dfc681f21fb379c65, 0x7a0803b184383762cd,
  0x54f9c9377d58ca65ff, 0x5d55826ef33ecacb63, 0x8e1c5e11cebdca8bd6, 0x56a91c5a20c2ca4cfb, 0x365ef97e2235ca61be,
  0x3dc9c6eb3ba2ca8d6b, 0x2fc655bb7467ca3ae7, 0xf582a9f60d23ca75f6, 0x576de081cb38040f67, 0x37e06b1feeb104f44b,
  0x05827f6cdbd304d14a, 0x027fd2e6ba2a044c23, 0x66d22c09ce830493e3, 0x102ce196ec79042dde, 0x456b82a0993e043ba2,
  0x54e16d2fffb004e7af, 0x20c4fdc06ef3075ccc, 0x1716e7ed962107bef4, 0x854fc494647f075f39, 0x9fe7314cdbd70712dc,
  0xc5314fa70406078388, 0xf2d465bafbe30756b0, 0xaffdd49913cd073f91, 0xb5651676ab55074274, 0x1a0dbfdfd652c3e1fc,
  0xb3bf8b569723c3cbcd, 0x0a53ffc461cfc38a19, 0x45ff063901a0c38f89, 0x2f062667dc9ac32db8, 0xb7267627d279c3ef65,
  0xe88b535dc6d4c3de10, 0x96760daae9eac3f06c, 0x8049d719d17a52d879, 0x7eeef0b7869a358f19, 0x9462837cdb69baf959,
  0xa73a1f1447a92830df, 0x052922b1ffb719864c, 0xee19e2842fff4bb7e9, 0xf10d32d3f916c1ab65, 0xc28a681a7657f687e5,
  0x45333bd4d638b13c8e, 0xc26424574d041062bb, 0x443806ce83fa7daa5a, 0x8d65f6284b6ddcff66, 0x4be855862775e1786a,
  0x30360ff92f7364ca3e, 0x1fa32e81327ef685e5, 0x54ba33d0532f3dc9d9, 0x9df49410d2b611d8e1]

/-- `B[0], ..., B[2038]`. -/
def SE_B : List Nat := [
  0x0f754a559263cf238f, 0x80dabd020896108165, 0x870550b01acb3f6e11, 0x1da5b56795c960bbed, 0x1d2a286095d367a68d,
  0x8717d83f1ac3b0e922, 0x0f72c2cf92f6552cb9, 0xbf4e5d32a7e529a6fd, 0xe07e1857c5622b2cbb, 0x489925b2ba7f9b012a,
  0x1f43f55842657c6e13, 0xe7eb0adf4d772423e3, 0x0d4bf2d0ca70fbe908, 0xd20baa2f276a1b81d1, 0x3054c7af3af034bb45,
  0x1845cc11a4d2c4c05b, 0x0acdc483ab48cc5a0e, 0xaaa053de1c0d49829f, 0x5da819e33be78b7d18, 0xf2d7e4dc61bf71b881,
  0xf55f71c6e630e437ee, 0xc7358b7626e0197aea, 0x253d49d69c1f539057, 0x90df9c0aa6c3c83482, 0xb82f61aa2cc98a24d7,
  0x82571c18bbcb5229e0, 0x37b2e62523d3982b27, 0x7dd03bf281f6a29b33, 0xc0afa4c76e04effbb2, 0x5a32ab5de996e87c6f,
  0x7a5826f501632d1b7c, 0xcf8a989b3313e6ebdd, 0x55988a1b2e93617e4a, 0x102da2fbbe663b0b09, 0x3fe8ef3409bca44348,
  0x60c8522b74b61c5475, 0xb0efe82989a1ab4bc0, 0x6752c824f3b99c4e1f, 0x02a22d7cb1e126997c, 0x6a75840ebf051610a6,
  0x65da4469e02a4c3ff4, 0xe505d43c4872ce672c, 0x77a5f9311fda6ccfd9, 0x70404ceee7a544b0a1, 0x622a6c3e0d40f955be,
  0xf017ce21d275d46024, 0x7f72168e301784029c, 0x694bf1f5d6663b2f91, 0x3eebd11876b99c32cf, 0x8e0b462583936157cb,
  0x0e995caa1113e6df14, 0x317ed90ae3b61caf84, 0x214e0cc7c6a1abd058, 0x3c549e5ddcbca45869, 0xee4364f2dee126b234,
  0x620c29e86f514d58ff, 0xf0f1fba22203a7b278, 0x779e34ef6859c5d0bc, 0xe5647c2dad913a2f07, 0x65461b8a85eccadff0,
  0x7fd92b524fc12732cf, 0x6ad124c8d5dbbaafd4, 0x705c9b9897794257d7, 0xf6f96a1af79e60d1dd, 0xc9d46208ea643f0c1d,
  0xc344e59278461064a0, 0x04846595edd1cf468b, 0x96167095f8d9555c49, 0xd3ce7708fff1b09e1a, 0x636c7f1ae20c67d919,
  0xcb4cf0926d5c02f1a1, 0x1a0e5637156bb85ba7, 0x1a8e5eb815fe3741f1, 0x923c6bc0155e5a8c34, 0x95695b7d158c7a6b44,
  0x083e8c901541825ef2, 0x9221fe5a1556c01e07, 0x95ee417a151e7dfe01, 0x08311e82155b9056d2, 0xdc56723725268e942f,
  0x836b17c0c71c21b335, 0x765b407df2abee7b65, 0xe341da7af5a469fcc6, 0xde8ca5900ae631399f, 0x11fe055a5d9c3caee9,
  0xd61e2a8218613e36fb, 0xc65e75b8aa3b0e1434, 0xf598b29922bd8a03ef, 0xc72d58436fd8a2518e, 0x25c8dfeb85c252ec75,
  0xaa52577e974ac87982, 0x5da2d04b68502d5968, 0xf28a2f0bad209891d2, 0x0ae8324e4fb5efc15e, 0x18efaf54d528e8db72,
  0x2bd3939683aa515e88, 0x1b6366c3d6f2db5b11, 0x29cbb963760a918c6c, 0x24c9130411255956b4, 0xfb04a1d3c65d79fe4d,
  0x9bf6e1cbdef5c141f1, 0x7c96bcc9dcc7ec6b8a, 0x34c3b6f6e318031e77, 0x02173c08b3cf502833, 0x67720e9594b04abd22,
  0x10052108ae55d8b534, 0x3f2a311a3602b54a15, 0xb0a53e1a391028c2d6, 0xcfdaee92fc6720d8ee, 0x554069927b60bd5005,
  0x60758e95143fc2200d, 0x634901531ee9b16b74, 0x04716ee45ea6091e99, 0xd3c423cc6b81334159, 0xc9cc2cc4fe012e5b55,
  0xf65381498c6ebefed9, 0xc319a68b412cf356c0, 0xcb8bbb195b23745e92, 0x49138d0462eea18597, 0x71e138cb6a3cb92234,
  0xccb647f6e58ee1d5b9, 0x53939f967769bc97c3, 0x8bbcfac97031136f40, 0xe466b7c37f21b6add5, 0x19a1fdd3653e9368c2,
  0xc4b9dd63f00e664f8e, 0x867c26f19618a787fc, 0xac1b615c635d42801e, 0x7334a40cc3aa4d1db3, 0xa9249cd9c9f5270fdb,
  0xf429ab9ecb25c51d25, 0x06fb3b64040a3a8726, 0xb42b1cd1d3f2ba0ff9, 0xa39be646f6c7ca8070, 0x468583733871cd12fd,
  0xf122d6b4fa8b3d8f96, 0xd94fe3868d49a89a90, 0x5c9711f4b7e44512c3, 0x0c6fc6ac47cc5f07ab, 0x64addea9fd19a08f50,
  0x9e68dca3ddc4d70721, 0xd1d576069f53359ae2, 0x47ee7dbdb4aada7c23, 0xb7319028065d2a2bdd, 0x8d21c050a3f5052998,
  0x9f3c5ad8acf21734a8, 0xfa0eb8c27318729b85, 0x383e82b586c7a52443, 0xfd8e374af40a751bfc, 0xdd697a20a92540fbf4,
  0xf9f774356571d50497, 0xd4ea095f7f496f6330, 0x16f82e45f08b97cbbf, 0x4c6db13d77c422d370, 0x4478bea062ccadc962,
  0x6ce2f3a870e44f9620, 0xceff89d76a5368f601, 0x84ed33cde51985c32b, 0x5e41ee4cb328103c60, 0x1e560e84fcd855eeac,
  0x5b6b3cd4364ab031a3, 0x41fe21ce39c23f3ee5, 0x8c5e8e167b50cf6913, 0x565b6944aeb5022144, 0x6b8c3e6c94bd600e04,
  0xfe1e31f91420678ed9, 0x683e1e280ebc6a8b5a, 0x976941bd2113f049cd, 0x6f318cb58ea17f1963, 0x4f0e5e4aeeb670cc3f,
  0xd58e56c269b965c4e7, 0xad216bd83ee16271a6, 0x223cfe50316677e413, 0x85ee5b203c93e55399, 0xacf9b58ccf933ee363,
  0x0616c25602660e8368, 0xa9ced86b60b93cc6ac, 0x734c205bb0bc69de93, 0x86844a5e10e18e118f, 0xb4d450fe67b621dc9c,
  0xf444bd413fa1eed639, 0x7598aa5c459fb25250, 0x402df264a0b7588a0b, 0x2ac818d13547dfef75, 0xa5520ad9a8dd57e8bb,
  0xdaa2f5f13d38d098d5, 0x728a2546cd8d2fc87b, 0x17e8c70c5ffa322d52, 0x05ef5d9ed7fdafa269, 0x50dce9a31ead5fc1a2,
  0x20de81a96b973d59da, 0xb5e3a6865e6835ec5f, 0xc28323735b4f450317, 0xbdd601b4fe85a05170, 0x4a112cf441d5cd91c0,
  0xd8c66eac8c22d7db0c, 0x2876bb06566fa8798c, 0xb18d9f595a44ecf44e, 0xf3fdfa79b8f959ac40, 0xbe9f8d51c04c797345,
  0x0938b7c190ce03a907, 0x89b738db82d491b4e5, 0x33dd47917d16c10668, 0x2e47dd037a84db861d, 0x74fafdec376c51a3dc,
  0x6c19354f706fa8fa45, 0xcee45f686a22d73844, 0x16cccd97f04f45ddff, 0x44533dad6285a08d51, 0x4c49a02277973d9f63,
  0xd471d76f7fad5fb723, 0xf98ba8d5656835fdb7, 0x84c44585e5d5cd4758, 0xe6b153a927366d8c12, 0x2609e4a3ca14ea560c,
  0x61be49b4ba39781e9b, 0x9c33ccf4c5b3edfe89, 0x1c2ec4734daef86b10, 0xa4741986a77bf74159, 0x3b8971ac4294ff5e60,
  0xabf38b063afce25b25, 0xf168ff090bbf7175a0, 0x9ed5f7f343e019da6b, 0x646fea899930e4723e, 0x0c4fe2744be78b40b8,
  0xd997f83354d2c417e2, 0x5c226dbeeb1f53a587, 0x46ad78b17e0d492ace, 0xd185ed2e4e48cc05e6, 0x4f69f0443a29e5b365,
  0x852162cec52477368b, 0x688e651642fb70fc56, 0xd5eee54ca734f0aead, 0x223e6a6c279b7f1442, 0xad317ff9ba1b6a94df,
  0x973c77d44d2b623983, 0x6f0e7084ca7c657b0b, 0x89f9906c4ad36786c5, 0x2e4c7d44d89610a92d, 0x096c82f9c2c960061c,
  0xf31637842063cf7367, 0x7484b816bdf655f498, 0xbed45ace28c3b0a322, 0xb1cec0d4b5cb3fac08, 0x33447a4c500402b421,
  0xa704fd8d71e8961758, 0x4dcbdd388bc8c32aca, 0x42f63847532d6340e4, 0x3a96fa9fe4ef040592, 0xbac98dfacc98d37510,
  0xc5c347b71952cba577, 0x27d39ffdc48ac97290, 0xca63b7dd49a2f6da13, 0x4a2397cd41a6f4dbc0, 0x506e685f1e01a391f4,
  0x28a6d5a856e90651cc, 0xb5bb4f355e6e86597a, 0xd8e96fd78c81ac0329, 0x2001ad3d6b23a9799a, 0xbd8122a0fe2cb4ec63,
  0xc22c85455bbb73c152, 0xf94ab85ee03fc244c4, 0x4cd8c06b1fcf50f90b, 0x84bd7a41486720d43e, 0x16207d5bd260bdcef4,
  0xd428821e3002b5165d, 0x6cc23756e7b04a4c22, 0x44505afe0d55d86c7c, 0xceb5908cbf10288406, 0xac37b875b2f516b30b,
  0x067a7d4058c7443621, 0xb490822adf25f9fcce, 0xa98290a557aa6c7bd1, 0x867d7adad05d4c39bd, 0xa3b837722ff284ae61,
  0x735ac017320ad49485, 0xf4c05a05af18ce146c, 0x22fa518d0569bc337a, 0xadfd599f17eea12efe, 0x6f47db38a521b6b124,
  0x4f8decfd7531138959, 0x68ddc1b72a3cb9be7c, 0x853803dd408ee1f398, 0xd59f79fa723e9309fa, 0x97b79147da0e6674e7,
  0xfd3380cd3f22c440ae, 0xfa2e8045b0adccdab3, 0xb7f30fa8028519758a, 0x38740f3510978b7258, 0xddb1873d606f4905be,
  0x47be87a0676853172e, 0x9f891dd7cf4fe42ac6, 0x8d091d5f55d571a599, 0x3537165e4cb965f88e, 0xa0c0cefef9e162ff76,
  0xcd7d4c41ce93e56d39, 0x457a445bd413f078bd, 0x5f90f91e84a17ff7da, 0x3d5ad46b6c6677eaaa, 0xd7826c8c16bc6ae262,
  0xa8b8845644b670ed6e, 0xca73f885e15fcc9e7a, 0x4dacff6fb645e446ab, 0x3aa96dada1a849d1d7, 0xa7b47822bc3553d943,
  0x2786f74f133d8b64e8, 0xc5a3ea68b9cd715c2d, 0xba06e2d593a019f137, 0x42f4ed9766d7c40cb7, 0xd4124e4de4fa322652,
  0x6c8f7e278bdd57ab3a, 0x16079942c49fb21cf0, 0x449a433a49b7586133, 0xf98febba1947dfa484, 0x4c9a4ba75338d0e624,
  0x84070bcacc8d2f9c43, 0xce1254c571fdaf3b48, 0xec2cccf8623d9702c2, 0xc1bb8bf7f0cdd5cf6f, 0x51e9e4ff7035686000,
  0x9101496d7fd722b015, 0x038153786a5fad3fd2, 0xdba619e2e5454f5548, 0x7923c4ed77a0851046, 0x596e71ea65a86f6764,
  0xd1a8f7359fb1064bb4, 0x0cd7ea5f4733ac0bbd, 0xd935e2a88dbe8643e6, 0x9e5fffd7dd2ea39964, 0xf1a06d3dfaf3b47e96,
  0x4645edcd38897354eb, 0x5ccdf845b709f44eb5, 0x643d78a0fd74a9eb43, 0xbc83f8f4cea085f0ae, 0xe1e3f70644454f6569,
  0xb9de6db4f95fad7753, 0x13dceaac1635687f21, 0x93c6ffa384a86f6aad, 0x6676e2864ccdd570bf, 0xa111ed73d43d97e5fa,
  0xb6d678a96cd722625d, 0x86bd924cd04ddabfab, 0xb4281af9df422a48d8, 0xf45008ceaf2705e049, 0x73d808d432ba17e785,
  0xa3c295842fa7720d24, 0xa9b51a6c57caa5d287, 0xac4a9516b23a751f78, 0x0620924458c5403064, 0x38404441be1b699a3e,
  0xfd17d4fe097c3c12b9, 0xb7da4c5bb19bee9af8, 0xfa05ce6b89fb2112a5, 0xdd2af98c7434318f86, 0x9f72845e33240e07a9,
  0x8d7516562e2b8e078b, 0x47a56c1ef3293e8f7e, 0xd830d2ae54830d8f14, 0x200de7fc4b7648128d, 0xb5e71f36ebde300771,
  0x4ad2bf940bc6e79ad6, 0x50bf48b34e111f8ff0, 0x28e00d397ed6bf07fb, 0xc248301499dce09a2e, 0xbd1fe07b43e3d2121b,
  0x723311736976cccb17, 0x752e83f4eee3c4c32b, 0x1709dcac3edee4f623, 0x0589c6a331d6716360, 0xa5f376868ec68b04b5,
  0x2a74e3060edc19964e, 0xdab1deb4211153c99a, 0x40bed6a93c8349d31e, 0xec08fed46f585a29c8, 0xc1925b4c22b27dfb0c,
  0x519556169757379b31, 0x911a1e6c4f32822b4b, 0x031a8cf9d5af9024f7, 0xdb924144ad2f7a7c01, 0x79086bce68d0c0346e,
  0x59955e8485dfb81b26, 0x70cd7323dae3c4e192, 0x7f3506bb75c68b93fd, 0x775fac6e2ad671b6f8, 0x6545f42c4076cc66ff,
  0xe53db401178349bc4f, 0x62d7a3e9a5dee4b9a2, 0x6aa886a672dc19139e, 0x9a9b0b2f877db2dd5d, 0x127c4bd01d5a588de7,
  0x07247e5780b8dffdf9, 0x072bebdf803757facf, 0x12fb43581dc0d09fb1, 0x9a1b99b2877a2f472e, 0x8f2954af0f8232b703,
  0x8f344e320f90af3810, 0xf65b92e5011b6926ee, 0x634192f0819bee3b60, 0xc95e9570232b8ee632, 0xd35695652c240e6131,
  0x046b0862e97c3cab98, 0x96fe08776efb21a454, 0xcb1e1a6aa634319cd7, 0xc38c1a7fbb293e1c96, 0xaa81b4491c30de28df,
  0x182c73c4a41f11d85e, 0xf2e9ac7161e0dc4aa1, 0xf56ea3e4e6e7c6c2f8, 0x0a23f4ccab0d83507d, 0x2501a9539cbfd6b512,
  0xc7bb8619264876bddc, 0x5da6068b3bd2e3206b, 0xbf9aa27c1bc264689c, 0x309a2dfb9b4af16f22, 0xe012ef297c200cd5c3,
  0x488fc82b29d8d9851f, 0x1f07981b2428462242, 0xd28f52243450d197bb, 0x0d078a9b2bb55cad57, 0xe712e834fbbd9e4fcc,
  0x3e74f7bb84fff3a1fd, 0x0e2ef82c4ce233b93c, 0x2109ea6e6c7889663b, 0x3c89ffe9f96d09e160, 0x8e33ed2344f72eb6bc,
  0x31f3e2a616ea74bcb7, 0x69b16d01cef8be938d, 0xeebe7881d4edb1131c, 0xbf579c7ea4d8d973cf, 0x0dafab5426bd9e863d,
  0xe0b261999cb55ca987, 0xd2583b43e6c264a3ec, 0x48d0264b614af1ac22, 0x1f32a44e3b200c067a, 0x30df1cebab50d1f43a,
  0xe72fe60b1c2846b4fb, 0x0239301f5886aec562, 0x55b30dd22facfca774, 0x3f94e030af7339274b, 0x677b48e7dfa9144279,
  0xb014e7bf32f436ba96, 0x1036bf0dd006b34d4f, 0x60fcd2e057b494ca12, 0xcfae1f48b2a37b3aef, 0x95612f9980fa0beb4b,
  0x1a1c57eb0f387e4e95, 0x95e6b20b80fd997e38, 0x1a9cdf7e0fb7eb54e3, 0x08a4af4e1d8d544bb2, 0x9226584b87dd430b09,
  0x923bd04387474b992c, 0x08ab32541d9f4e4392, 0x5a6a287fb35b90cf53, 0xc07fb56aae418255f2, 0x8265c270396bb810f6,
  0x7d62d877fc5e5a677c, 0x37e520f0148c7a3f0c, 0x90704a6536fe3702d0, 0x7a7750627b56c06056, 0xb8f0bde5941e7db0a1,
  0x5df1a72d686b4b046d, 0xaad927c897567ed3d4, 0xc7643aa26ffe439698, 0x0a0c4def4f1e4ecb5b, 0x189ec5e8d58c54c337,
  0xf246ca98ad410b63f2, 0xf55c428a225b99f6d9, 0x25d1ba52855eebc966, 0xe8f5fb9a6ed8a204e7, 0xeff27c9ae9502d96c8,
  0xa2251b0701bd8a63be, 0x8a0a2b8f23c252d384, 0x2daa9b07812098f653, 0xc8c72912bb28e8cbf3, 0x9818248f2c4ac8c982,
  0x525d3412a6b5efc337, 0x8e151430cae9b3f2ef, 0x0e1594bf426eaef553, 0xee15fce73abb39c773, 0x3115361f2781fcaac1,
  0x2115aed24d23140a50, 0x69157be0a7a6365dda, 0x3e15390dba017b25ce, 0x3c15b348c52c94184a, 0x32a31de4c3cc5faa93,
  0xb27380c463e4455d7a, 0xd0a98753968b3d187e, 0x58b487490419a00af0, 0x2ff480ccf671cdc7b5, 0xdf860f19d35335f25b,
  0x57060f8bc949a8f589, 0xafac1d71cbc4d72500, 0x4ec6e41d632cff2f99, 0x9911c480cbe9ed3245, 0x7ee38b0f9601f7587d,
  0xeb76190f0481e2d090, 0x4bd65387d3bb78574b, 0x0b83cc80c36ef8af80, 0x43de4987c9a66ddf4a, 0x54dc711df623eab2b0,
  0xb8f473112019856392, 0x908606e3c271d5c9fe, 0x7ab4a9d6d8ccad965a, 0x3773f483bd8b97f66f, 0x820686764ae44fd380,
  0x5aa3acdcb5496fcb29, 0x7da9b4de50c4220451, 0xc0aca3c6285368c3a1, 0x49b0c03ca5db17eac4, 0x1955370e400372eda8,
  0x8bcfb88eda9175f854, 0xcc027d6917594078bd, 0xc4107aee0551da6daf, 0x7167823172792af71c, 0xe460903e75eca5e29a,
  0x533f5a212ac105ffac, 0x638635767d2ef7754c, 0xf606a8e37a33e272bc, 0x96f4cd83c0b1edda25, 0xcbb4a0de90897805f2,
  0xc3a93dd682096d17d6, 0xd3a35fc6b874ea2a00, 0x047345115abef840dc, 0xcf832e117d06ed47bc, 0x551133837a86f8dd69,
  0xb0dc09c682b4ff38a0, 0x3fc689dc90a9eab701, 0x67e37476b8ace2fa45, 0x6076f3e337a3f7fd3d, 0x10deb1d6c073788d73,
  0x02d6bede5af46d9f7f, 0xd0d7c61d467ba35e30, 0x574583809e36f46be8, 0xdfcd11800c3973fe03, 0xb23dde87d194b48c42,
  0x2fa0d687d914a91e87, 0x32a8760ff1ae865bb3, 0xaf35e30f64b3064159, 0x585fdc1d5cfcac56f4, 0x15bad95212b0c8ed82,
  0x153af1a207cf2dead0, 0x1527d1c8123f52f8d4, 0x15ca5c988f608a789f, 0x1542468a8f67986ddf, 0x154d9eef9a10e8e2fe,
  0x15a7642d0755a2ffa6, 0x15c50ce89a02eff79e, 0xd35a3cb0ff9a084d3f, 0x63903167e2121aba4a, 0xc9c0213fea9a08c56e,
  0xc37dee10780792a7a0, 0xcb7a69026d07923a81, 0x04378ecfed8f95429d, 0xf6823e60f7121a27cb, 0x96b80e55f88f95ca6c,
  0x2ca45d12470b32eaba, 0x811c0a8f9f4bdff7a4, 0xa63bf59afdeb587883, 0x23abc712dd99afff94, 0xe9612507b74eb2f870,
  0x019c188f8d4357e266, 0x6ee6aa0738542fed9a, 0xbb26f29afa7ed06d85, 0xe84b3ba26e089aecb1, 0x2d99e698819207db36,
  0x5254a4efa61a129172, 0x98eb9cc82c958f51d4, 0xef43262de9089a79a8, 0xc84eabe8bb1a1203f3, 0x8a7e1c5223958f59a4,
  0xa20b618a019207c1de, 0xa2e4d76e2f0d6f95f4, 0xc8c4cd2c32e79708f3, 0x8a53a00157d2221ae1, 0x98493d81df48ad1adf,
  0x52cc4523afe085085b, 0xe819a8bbd0bfd592fa, 0xef8b35a658304f9294, 0x2d715fe9b21f68950c, 0xeb4d5daf067fab88e8,
  0x7ec5c732866aa48810, 0x0b2718df73701c9de0, 0x4342252fa9f0e68874, 0x543af5d0a362269dc8, 0x4bcaaab2b4e5618806,
  0x4ea7f258ac773b9d98, 0x99ba0a57f4659c9d3a, 0xd62b7e52bc7c9ce3e3, 0xe37c432d13243bdee9, 0xdc9b9998b92961117f,
  0xc61b0b8ab634e6831c, 0x833454efe19babdc18, 0xde24ebc8a1fb1c76d4, 0x76fb4ba2932b26d631, 0x11294ee8661ba4c694,
  0xc46b503f3457febf8b, 0x491eb5602b2f8ce7e1, 0x194120027caf5b0dc6, 0x8b5bbd10fb32411f6a, 0x538c286724b21ee087,
  0xccfed8b029df6b30fc, 0xe4564acf9b585ed291, 0x715ec2551bd056482c, 0x48421b9bba1eb24979, 0xe7ba2b244d6bdfc495,
  0x0da77cfbca56d0e40d, 0xd2ca9b1b278c2f5387, 0xe027242bc5fe57ccdb, 0x30c529343a5baf8b20, 0xbf4d3429a7413219eb,
  0x1f3afb7c425e587176, 0x9ac6eae907ae6ecf23, 0x9adcff6e07b3e95530, 0x1276f7a69a39bb02ba, 0x07de78018ffc8160ce,
  0x8f11f82312942c3f72, 0x8f83ed2c121423b037, 0x07d66d818f7b0167d8, 0x12e3e2bb9a36a610fa, 0xf620bd690161e5d0f8,
  0xcb28b531a6a46a57f7, 0x63bd20ee81e6f05805, 0x9650d8216e3b773267, 0x04d8503ce92662af8e, 0xc94ac28e231c702f77,
  0xd3c24a0e2c9c65b202, 0xc3b5283ebbab7fdf96, 0xaacc8311b6ff2c34fe, 0x188be376bc78bb7c03, 0x25c41183b9ea23294e,
  0x0a1976e3a16da6fb72, 0xc771dcc6e1f86e9baf, 0xf549ded613f70124dd, 0xf253d6de93e2812bd7, 0x5de4c6dc66ede91b64,
  0x9c4fa6f359ad763b88, 0x1cd5bb745122e3265e, 0x262201b1ec4fde9c27, 0x61972c2edb6f83a4cc, 0xab68e9899197c66139,
  0x3bad81be79d5d61c4a, 0xe6852333c16811ab4e, 0xa46f6e090385dce600, 0xa42d3bf17117f2fd3f, 0x2698614649daaab753,
  0x9ce8a49e19a5c747e2, 0xaba22664e405f5fa67, 0x3b8ae65c5340253874, 0x61529cd1cc750a8d95, 0xe6c81cd9c472189f75,
  0x1cefab0c8b2a5ddd7d, 0xe2ec8d79cfb504ff46, 0xeadb47c160d8f66d2f, 0xf891b703104ac3f71a, 0x6d51fa593fbdc9ed8c,
  0xf7799fec552896ea18, 0xed03389102c2cbe26e, 0x7859fd51b020d3f880, 0xffc1dddb6750637809, 0xea0b99cadd4daa2e62,
  0xff990b4247c525331c, 0xf74b43a78dbaf2be26, 0x78eb7ebafa3a0af3e0, 0xf84e544d38425d8959, 0xed544ec5b7cac70946,
  0x6d7eeb27fda7187495, 0xe2434b3a9f27f5b132, 0xce60f928bf7a8c4a15, 0xd4676cb5307d1ec22e, 0xf9cf84c2e05a5ebde4,
  0x443fd4d80d37fe282f, 0x84104420488241503b, 0x6c55164ae7c0562011, 0x4cb0ce501fb86bb578, 0x16024cbdd2905bd8a2,
  0x26fa96596f2993fe6f, 0x61b76303ad7cb941f1, 0xa447c3c1d524668c02, 0x1c9fd3ec979ba15672, 0xe638f69122fbb65b0d,
  0xabddcbdb4f2be11e49, 0x3bfd04516834136b4c, 0x9fc07717aca2d8abc8, 0x477ae5dab48abd3b30, 0xb7827f2a06e8289ccb,
  0x38906aa586efb51c50, 0xdd7df040a9982026a2, 0x8d5a6205a32d50a48e, 0xfa3770727352c26185, 0xfdb86575f4c84ae6ca,
  0x4d064ff3fb1f35bdae, 0x3aa36f099bd2d74aa1, 0x2773972e34bfcd50c9, 0xc586d5747c0da82055, 0xa7ac68891b485fc23e,
  0x42a922b124e0a028e1, 0xbaf48533293045d80e, 0xcab4adbe2be73db542, 0x5f38e1473eb0c381a3, 0xd7b766dd313fcb0156,
  0x35fabc9f0e67d3e9dc, 0xcdddb9386955f6bb67, 0xa8fda18d8e60c96e55, 0x3d8d13fa2110962cfd, 0x4547b6b7eecf63a6b9,
  0xa09f93fd3c0204235f, 0x50af340cac9d12f2bf, 0xb5572bd106888f5d5c, 0x20587cf1b4889aaad5, 0xd832299ea39d12f56f,
  0xc22f1b5cf49d070a7e, 0x4ab29b46739d071896, 0x28df24d986888fc795, 0xbdd0fb64a9889a2524, 0xf9aebf149c490d98c1,
  0x449448ae268be7ef7f, 0x6cb330941c531f8a79, 0x8436e0fc61e430a241, 0x1639e77be671bf2dde, 0xd47b0d36abc4d2c87b,
  0x4c14d2b33b19e0e81b, 0xcefc1f39a4cc485238, 0xbe672a8c7e071a0d2a, 0x2eb017fe548f08d277, 0x0955725e999a95302c,
  0xb160a51eeb071a1f12, 0x333f056b4e8f084826, 0xf30240414b1292e739, 0x7410da5b431292e099, 0x89cf75560b9a95bfe5,
  0xa1558ec24527160b83, 0xbccf0e4acdba8499fc, 0xb91069bda0ca444b0c, 0xe1673e28a84d6ceb19, 0x13b021d8d7a7ce4e6d,
  0x933f3c505f3ad454b1, 0x666031b535c5f97e86, 0xb602ee203d424c4330, 0x59d7686f6574ea3e21, 0x033d22ad6a89783cf2,
  0xdb35d54fe533e28e4d, 0x515f6f6870f3ff3165, 0x91a0ad227f096d2106, 0xeccd859762bef8ee94, 0xc1a84fd5f02ef70e3c,
  0x7945978577b1ed6955, 0x42de3da024b3b16ac1, 0x278345cd347b2e7789, 0x3adc5fd79b36097081, 0x4d76a835fb94f3f0b8,
  0xa7c6d75f1b3989653b, 0xcad6a03d2baebe7f71, 0xc5e335a87c1474e546, 0xba11cd4529fc33627d, 0x3ba36eff42fcac6505,
  0xe6b4816d2714a96a57, 0xab86bbe23ab306f040, 0x1cf423f84d39737703, 0xa406a6f7a7ae86e50a, 0x26ace9eaca7ba37029,
  0x9c732cedc536f462c9, 0x61a90178ba94b47ffb, 0x935ecf72cc9c650b83, 0x13565575c41c709926, 0xb98c602a19a46aeb27,
  0xb61e67a58bab7f7e7e, 0x665b02da53e6f04bf4, 0xe14110404961e54360, 0xa1fe3f17e426624ee7, 0xbc6bb005713b77548f,
  0xb9bbf30640f4a68e6f, 0xb6a67486da73bb0e52, 0xe181b1a9a5a3012174, 0x93232e7317b42ceefa, 0xa16e89ac7506e931cd,
  0x6601beb42aac813cbe, 0x132c33f405a923696b, 0xbce909a372866e3eab, 0x7b5ccae6d91eb2d6e1, 0xb3f13a3b5c56d0dcc4,
  0xfc464261d18c2fde57, 0xae64a726465e58c6a6, 0x360cc5ab644132e3eb, 0x94d9ba1c0cfe5711e3, 0x14d1279c9e6bdf835c,
  0x399e4da4f15baf7680, 0xae8a07427e6caad6df, 0x94e812c54b4c5d76cc, 0x7b528fba54ce1883a4, 0xfcc88f274ed40a1175,
  0x14ef124d4344c7e35f, 0x39a29a3a0b84f2c6f6, 0x362d9aa79916f5dcaa, 0xb39807caebf925dec1, 0x9377ced45f2d50c7e7,
  0xb9f04c44a08abdf229, 0x667f6cf935efb518f0, 0xa16584164552c2aaf5, 0xb6e5444c3d9820f523, 0xe16af96ca8e8280a4a,
  0xbc701684cdc84a25ca, 0x1362d4ced7a2d85d68, 0xa342b2caf6e8462363, 0xf44d32c5cb8a9ee940, 0x06a7d03a0452648135,
  0x863a58a796c8f101ca, 0xa9badf27c9a2d9a6bb, 0xacca2f4263ef5c2c1b, 0x73c5af4dc3980c6eb3, 0xb42757bad32dd1bbcf,
  0x2a95b8721fc056f008, 0x051a902ad27d1e7047, 0x72927a40bf905b7723, 0xa59537750d5a5ee5ac, 0x171a82a5487a8c655d,
  0x40085a17e0b86b6a61, 0x75927dda308241623b, 0xda08c005e737fe7fc7, 0xad79bca1177d9f839e, 0x4f5993137590fdc60a,
  0x97dbe166dab847e3b1, 0x85c166e14037dd768e, 0xd55113937282fadcba, 0x6891b6b92a5ab7d62f, 0x6f03b9b6a5c038de61,
  0x22eca1bc057a8d115f, 0x5cd9d19ced8e2bfddb, 0x64465ce66d691bdd41, 0xd19e0cabe23134b789, 0x46d1d91cf80e24facf,
  0x9ef16426ea21fb8d6d, 0x0c64f13bff3c7c9f8f, 0xf15c466178ee9b47d6, 0xd90c9ea4f73e2938e8, 0xfe6ec60960871db9ee,
  0x562c112e100f80e148, 0x1ea6e3f3cf1d0f93c3, 0x8cbb7674551d0f137a, 0x5b01d6b13f8087a18d, 0x5e238333020f806669,
  0x4181debeb08087bcc5, 0x6be9dc8967871db63e, 0x91d5e3a8eecc765e48, 0x034f763569c4e356b2, 0xc1add63d31e4defe53,
  0x518511452149834159, 0x796fdcd70e8bc61e2d, 0xdb22dea03e71d66b06, 0x599783cd3c53115b6b, 0xec68c65f8e19dc8cb0,
  0xaccbc1471e0888ad61, 0x06c9ec9f5e1a9d6818, 0xa3c3dbdd8c08882278, 0xb40459fa6b929d97fd, 0xf4f603b75b95884f54,
  0x86d3798d561a9d6fb8, 0x73639138419588d5a5, 0x096388039005c1a034, 0x33c388c17d7591356d, 0xf3969d59b82a795f25,
  0x74049d5137a5ecd7ea, 0xb1d39dec5a4059453d, 0x89f688918217db3de5, 0x2ecb88db7a7203a86e, 0xbec99d79c0da51cd20,
  0x3bec5913684d515069, 0xa491db66d527c12831, 0x9c51ecbc854279c290, 0xe6db03b6223a91bd08, 0xab03c1e14fbadbb56c,
  0x61c191b9ada70320a7, 0x1c5979a197caec4a37, 0x267951936fc559d83c, 0x131d096816e2ac6c64, 0xa1803397d4787344ba,
  0x660ff3d54cf88616ff, 0xe10f744f44ed06844c, 0xb987b1adf9ffb4ce36, 0x931d896f84f7a3f9cd, 0xbc802e85ce6df44cb8,
  0xb687be226ceaa9d42e, 0xdaceb0fee71605a591, 0x2a84cf561fce72da0d, 0x7244105bbff9400530, 0x754c0241306cda173e,
  0xa516555e0dd47540ec, 0x176c678c4844a5722e, 0x05f9601ed24c2a7574, 0x40d43f6be084172a24, 0x7de730152df394547f,
  0x7ae0bf15a274144e51, 0x5a48e015ef33fc7e14, 0x37300d158a09364b36, 0x901fd21552b1b30b9f, 0x820d4815c8beae99b6,
  0xb8bf1f1598893943f2, 0xc0d2e715e82e7bebd7, 0x43bc8dd3eac559214c, 0xeb13fd96ed42798e89, 0x4ba19fc9ff4d513c48,
  0x54b63863f727c13ea9, 0x4eb9b7f6e2badb319d, 0x99e1ddc36d3a916911, 0x0b6647cb78a703eef6, 0x7e93fa04f8caec0e5e,
  0x34f2a7fbd7d43ac96e, 0x9b18272b4584ba0495, 0x29f53a7c5fcea7d354, 0x2b5d4d29a8f9c5f689, 0x24c7c534356c4d63e6,
  0x7caaca1ba04c42cbef, 0xfb25429b3d44cac315, 0x1b0aba24cd1627963a, 0x695077b0bf841790d5, 0x314a7055d2ce727dc4,
  0x3ec265cf48d4757a9c, 0x0ebdf0021ff940c029, 0x8e20e5100d6cda5aee, 0x21b57f67e74c2a3704, 0x3c286a60e044a5b847,
  0xeed8623f3016058209, 0x90847537363c6592a6, 0x7dce175afc0e771a2f, 0xb844da7d943ee50881, 0x374c407a1431f00829,
  0x5a6c2a90b3ee7f9536, 0x821672b839217092f6, 0x7ad405c07b8e621a33, 0xc0f9a582ae696a95d2, 0xdef93e310a9990e7df,
  0xdc160e8e254337487c, 0x11d4213c5deb5abfa9, 0xd66c313e180b82e09b, 0xe344ee69f5547a1fb0, 0x764c69eef24e7d0d00,
  0xc6848e0eaa4bb8d207, 0x83ce3c21c77ec03026, 0x2cefc532470712c6fa, 0xe98acab2b712071163, 0x01c8ba578d9a8fe375,
  0x815227df9f9a8f7684, 0xbb2d3ad0fa8f9ad685, 0x6e98422f38120783da, 0xa6a2a758fd8f9adef5, 0x23e84dafdd0712dcc2,
  0xe42fca999134e673ed, 0x71b2420b032961f416, 0x8b583a4b51243ba949, 0x535727eb797c9c86db, 0xc4324d54c11ba4acdc,
  0x19d0a743592b26b4a9, 0x49dfba7eecfb1c06a4, 0xccafc54edb9baba3b8, 0xd6fe3cc06af6d889f1, 0xc68c3182709628f316,
  0x76568eb8e5c34a331a, 0x1141697d77d320b1c6, 0xe35e0e37f0cbc22ea8, 0xde6b215a7f635009a6, 0xdc1e3e906504b57451,
  0xeb2c8083efe085d4e2, 0x7e238011e8e797ce72, 0x43e91dc68a0d6f1605, 0x4b6e1ddc981f688444, 0x54a60f76a2bfd544c2,
  0x4ebb0fe32d304f4cdc, 0x998187d652d222f979, 0x0b0187dec848ad6cb6, 0xc835f3a6fad6d53af3, 0xe85f89e938836f42cd,
  0x9845332347c697c5fe, 0x8acd2e2cdddc854db7, 0xefd7096eb71168cab0, 0x52a874bbfdde4fa710, 0xa23dbe818de322baf0,
  0x2da0b1019f76ad2727, 0x1d91c3f61a5063a991, 0x1d03cb631ad8f6b4c7, 0x877996c90820d3f420, 0x87ec04d308bdc97345,
  0x0f59d39695b504a3ae, 0x0f51c904952896acb8, 0xf0876d53053381511e, 0x7080f8c4da742391b2, 0x621deae4a5b1e9dbf4,
  0x6a0ff7197209a679fe, 0x6580edcc40f32c03bf, 0x771dff712abe6ec1ee, 0x7f0fe28b7589bbeceb, 0xe5877849172e01591c,
  0x0af7a8a6a122e3f137, 0xf5783d0113d5d6d1cb, 0xaaed452cb668119e9e, 0x25f8cd23b96f830c3d, 0x5dead7e96685dc4621,
  0xf26da081934fded9f7, 0xc7ff5f6ee197c65c99, 0x18e235bbbcad766410, 0x902b57c8a6910aa4d4, 0x371b2f982359251c14,
  0x8224df52bb0318abe0, 0x7afbd02d01c1f5612f, 0xb89bb28a2c51aa9cf7, 0x7d7c58a281dbf2e656, 0xc02932ef6eecc73b92,
  0xa7ca4699d64025c104, 0x3a425c0bdedaaadbd2, 0xc53a644bdc17f2796e, 0xca27d9eb83750a595c, 0xba4d0c5476a5c7035b,
  0x4da7f143c605f5ec8f, 0x42bad17e1172185184, 0x27c59e4ee32a5d91b4, 0x22eb2457136452f75c, 0x854e29afb95cefeaea,
  0x6f999b2fe19e8af81e, 0x680b1bb2660c98ed62, 0x97543432b646e8fffa, 0xad7e2bdf93f1c8e282, 0x4f4bfb58a1d12d6d31,
  0xd5437cd0bcd9a27883, 0xa8f1d07cecbaf2a977, 0xd7462f9bc14daaf45a, 0x356458fb7927f5b48b, 0x5f5cb21bdbc52573ed,
  0x3dd1df2b513a0a86f9, 0xa0d9572459a718065c, 0xcd0c323403425da340, 0xff6a2a1ab8fa827473, 0x6d77050890b75a89f1,
  0xf76572957add373368, 0xede540925a9f7dbe28, 0xea7fa51a37fd90f35a, 0xe27075957d47b82e6e, 0xf8f0da92c08d7ab100,
  0x786217088238c009f6, 0xd1321234e27fab66c9, 0x46578f24f8701cbcf9, 0x64b2071b6df0e6b904, 0x9e589afbea62261368,
  0x5cdf8f2bed659ca1bb, 0x0cd09a7cff773b93b9, 0xf12f079b78e561b6d6, 0xd9af1229f76aa4e188, 0xfaedf8ccb0de4520b3,
  0x8dffea7155765f28af, 0xfdf8edc43fd6cdbdb8, 0x476d785367dca0505d, 0xdd786d4960c63dd8de, 0x38e2f78b1011354a2b,
  0xb7f7e2190283a8c2bc, 0x9feaffe4cfe3d7b5b0, 0xf3694c924b3241146a, 0x090e169599585e3909, 0x3321d4084edf6b7b35,
  0xbe316c1a7e2f8cb379, 0x2e3cce085457fefc32, 0x74ee449243af5b94af, 0xb13ef91aebb21eae57, 0x898e84950bd05636e5,
  0x050c4eafd7c99ea74c, 0xda6443d03dc3f142a3, 0xa5d1eb57a8f6d94ddb, 0x75460bb245045c2743, 0x2ad97edf3563d1c566,
  0x179e54325fd30c3a17, 0x725c992fcd9646ba7e, 0x40f14b58a0cb64ca78, 0x9ff4c42c508780e594, 0x8d73cc23d88780f0dc,
  0x38b45301281d876241, 0xfda371e9c20f1d7fab, 0xdd868ba6bd800f65ff, 0xfaace46e4a0f1d6a93, 0x470619bb20800f7017,
  0xb7a94981b51d8777d9, 0xf70244f0a24e7dbf21, 0xe2104ce52d547a3028, 0xeacf16658a4bb80d56, 0x6d67f97f520b82d29b,
  0xff5584709843371f34, 0xf83fce62e8eb5ae731, 0x78606c6ac8999048b6, 0xedb0d477ef7ec0e077, 0xe2c216b87d8895cc1d,
  0xffb5f982b89d1a8b16, 0xf8204c7ac09d924965, 0xf74a84377a8895c46d, 0xea286c90379d1a197f, 0x6dd8ce5a908808e4a7,
  0x7850d4c082880871f6, 0xedbd447d5a9d92532d, 0xb5b8958eb33c65ee76, 0xc27d92693631f03c30, 0x2837950eae217069a7,
  0x50821a31fcee7f0ede, 0xd8901a3e7b696a8e53, 0xbd5a0821148e62310b, 0x4a7a92ee393ee521a0, 0x20c0083c940e773ec7,
  0xbd4894d243f77baf1e, 0x2830b3bf7e78392f9b, 0x500d7b1f4eedb3df86, 0xd81ffc0d54f8ae5727, 0xc2e739e099ea14585d,
  0xb5bfae30eb6d36b242, 0x4ae036e70bff94d0d6, 0x20d214484be2fc32ed, 0x13ed1123056df47a18, 0xb9e276a640ed06373c,
  0x93f8832c1778737dba, 0xb6f7e3bbdaf886b817, 0xa1ffc6e975e2ac90ad, 0x6678d6812affb45ade, 0xe16dde01a5eaa9c047,
  0xbceadc6e72f7a382bd, 0x2eeef010d8ec448728, 0xbe3c62b02803ce1d11, 0xf38e70cf20db848054, 0x3369e50250794c8764,
  0x89316a674a516c0fc5, 0xb121773fb591d41d0d, 0x093e7f60c259f90f4f, 0x740e6555bdc116808e, 0xe2bc9304cf2a791d55,
  0xffe1b6636717db872c, 0xedb666cb0275910f1d, 0x6d93a1c93f405980cc, 0xea66b9f66005c1877c, 0x7813bcd3b0da518080,
  0xf7a1139655a5ec1d6b, 0xf8b9e1c31072030f3f, 0x1ad2fc398f6d3646fb, 0x1a487b368f78395c9b, 0x950db39407ea14f115,
  0x9230397b9ae2fc9e1c, 0x951fae1407ff946406, 0x08e094ae12edb3d9d7, 0x92bf36fc9af77b0c4f, 0x08e714b312f8aed1f7,
  0xb29cebd93384ba135c, 0xdfab4e9ef36c4db90e, 0x58e69946b14c42e1be, 0xd0610b5cbe44ca665d, 0x57a4540c74f9c5b690,
  0x2f1c7ed12e162793bb, 0x323b4b6489cea7a1a5, 0xaf2643f109d43abc3f, 0x6e601a2a56516cd58d, 0x230292dafeec4422b0,
  0xa6cf95725bc11685e7, 0xbb55957541db8497a5, 0x013f08178c03ce6f08, 0xe9671aa55e59f94f1e, 0x2c1092406b794cadad,
  0x81b008051e91d468c4, 0x703614aeaa89393bf2, 0x6ab3367b18beae61df, 0xe5147b39f2f394ab16, 0x62fcb314c72e7b1c86,
  0x777bae945d33fc9cdd, 0x653994b325093626de, 0x7fae39fc0ab1b3e6ce, 0xf094fc36f57414a470, 0x5541e5bd7b1a920560,
  0x3f8c6ab536921a7506, 0xb01e7f2839921a72d6, 0x675e654a940895da11, 0x605670c21408954008, 0x106b77d8ae9508a507,
  0x02fe6250b395082a56, 0xcf5bf020fc1a9217f8, 0x04c4f4f85a531144ea, 0x96cc73edc049834c40, 0x631906f77dcc761669,
  0xd3e4aceab88bc6f965, 0xf68b86e27ac4e3848a, 0xcb49a97890e4deced2, 0xc971a3ff3719dc6c28, 0xc353b46d8271d6d4d6,
  0x7ef335f796870f260e, 0x54895feaf6801de6c6, 0x0b3345f8c31d80a480, 0x4bb1a078d30f871c38, 0x4e09d7ff63801d61af,
  0x43be3d6dc90f879c19, 0xeb74a8e204870f3be6, 0x992ecdedcb1d80ab20, 0x29582da75f3c7cfa67, 0xfbb298ca3dee9b3806,
  0x34d0a23ad721fbfd1d, 0x7c2f8a42a0691bb7d9, 0x1bdfc827cd0e248d1f, 0x2b32e8c5a83e29ddc9, 0x24afef4d3531344790,
  0x9b5752ba458e2b9fe3, 0xe863f6b68624668283, 0xeff663b9062be190e9, 0x52960413f41bbc370e, 0x98cbc366b47cb97dd0,
  0x2dc9d3a1ac34135a3c, 0x8ac3cbe1a9fbb67ac4, 0xa2d3c9bca32993c0bf, 0xc8049693739ba1b8f3, 0x8fbcfd9f802f8db85b,
  0x07b6ddb787d0387d9c, 0x8fa1fa8d80b29f375e, 0x12e1b7470f57dd8283, 0x126638dd0fdf4790f5, 0x9a938dfd1d32fa5a52,
  0x07b947388758b77aaa, 0x9a139ffa1daffdc017, 0x298bf3f7f20da86925, 0x24cc33f85dbfcd21e8, 0x7ce409ff25485f0eee,
  0x341974e2f51f35ee46, 0x9b53b1780ae73d3efb, 0x2bc42eedc730453ce6, 0x1b49be6d18e0a03179, 0xfb7189eaaad2d78e01,
  0x6edbc3b72862e15391, 0x2303f647bd65b98bc8, 0xa6ecc9fac27fa171fa, 0xbb79d3fd4a6abce4b3, 0x0151969fd8f013cc3d,
  0xe9c1cb38b57766490b, 0x2c9163dd2070b619b1, 0x8159048d50e593c497, 0x52977385af14235a5e, 0xa268ac6f2fae6e37a2,
  0xefd5864f5836a67dc2, 0xe84f06d5d039bb7aba, 0x2d6fa368b2b3e9b829, 0x8aadb422577b0190c1, 0x9822a9addffc81829f,
  0xc885f49732942cc0f3, 0x024b9a26b1b97c9b2f, 0x10439a3bbeb6fb1b2c, 0x60eb8f1c74e12b3466, 0x677e8f9cf36624293a,
  0xb05412ab899329fbc0, 0xcf0b07e633a19b24cb, 0x3f4e12a40913347c4d, 0x559907612ebc1b2b19, 0x2dbe53ad9ff7010a14,
  0x982ecc9747ea235d9e, 0xe809716f38ede9aaad, 0xa2b149228de2811886, 0x8a33c485ddff2cc797, 0x52f3194ffd78bbf503,
  0xc8748bd5fa6da6f2f3, 0xef89e468b7f86e25c6, 0x60bf7b9457a0e0aa57, 0x6730fc14df3de7252a, 0x02d236ae58351fc751,
  0x104839b3d0a80d5d1c, 0x3f0d1439af45301838, 0xb01f943632cdbf0a96, 0x55e7aefc2fd7d2f247, 0xcfe0b37bb25f48f5d9,
  0x9b2c97ed91ac33afcc, 0x7c81ad6d5906b157dd, 0x24bbd5e279b4f358c9, 0x2ba64ff7eca974d0e2, 0x34e968eac1f4092f2d,
  0xfb0122785186bedf38, 0x296e6fffdb7389b26a, 0x1ad5a6e295a3f7d3cc, 0x086fe9ff1aa9eac3a1, 0x959723ed9286f86348,
  0x9222817808f46d9616, 0x92ad016d0873780473, 0x1a4fbbf795ace2c98c, 0x08686eea1ab4ffcb81, 0x95852cf89206edf64d,
  0xd2e854abf5da4da6c3, 0xe0a2433b2572a7e9ec, 0x48ef4ea4f240c5bb45, 0xe72d4b26aa753a6ea7, 0x1f52eb1c5d05272c0f,
  0x0dc87e9cc717ba2375, 0xbf980be6182a4201ce, 0x2c5b414c6b594081cd, 0x016bfece8cdb176e0d, 0x23415b44fe51da01c6,
  0x81fe6bd41ec105e9e4, 0x6e1e8c6c56792abbed, 0xa6565e165b037223b1, 0xbb5e56844191752ca5, 0xe98c1ef95eeca5a61b,
  0x5a140dfcef80152427, 0x7d36d2942d0f15295a, 0x907bbfb35287159bdf, 0xb8b3e039981d15fbd2, 0x37aee7368a1d157c53,
  0xc0941f7be880152bf7, 0x7a394814a20f153462, 0x82fc30aec887151bb6, 0x690dae36a719e0349a, 0x31e014fc27531f9be1,
  0xee1fb3393a8be72916, 0x21bf39144dc4d22b43, 0x3c303694c5cc482419, 0x8ed27bb3cae4307cd9, 0x0e48fcae4271bffb36,
  0x3ee7947bba490d1bd8, 0xaff7d50664150fee0a, 0x32e24f86f1150f69b3, 0x2f78ada9d9158731d1, 0xdfed85730c15802110,
  0x58ea6fac5c151d0ea2, 0xb26d22b4d115873e71, 0x57f897f49e15803c88, 0xd0ff68a346151d8e23, 0x539dd3bc771096c4b5,
  0x499dc9a1620204ccb7, 0x199d04936567d37194, 0x8b9d96137060c9e425, 0xcc88c3e1e555f6198f, 0xc488cb66f0cf638b98,
  0xe48863b67fb0c349a3, 0x7188f6b96a3fcb5307, 0x80c7ef0c888a9e8959, 0x805de89e88980c090a, 0x870ac8d99d2dd1741f,
  0x1daa8a5c88e84633da, 0x0ff2a2649dc8f1b1ca, 0x1d25984688ef5c2e9a, 0x0ff52df19d5264befc, 0x871852d19da2d9f33a,
  0x7613a159846abcff0a, 0xc6b966916c62e17809, 0x11e1b9c14c70b6e2a8, 0x8366b6db4465b9f768, 0xdcb6e103f977666d33,
  0xe393bc51167fa1eac2, 0xd6a19379cef013f8cc, 0xdebc13ecd4e593edfe, 0x81967993507a8d45b7, 0xbbc951bc4a90fd5fb3,
  0x0104ec13d87d9fcd4e, 0xe9c39166b5c038a078, 0x6ecb03e1285ab73dc7, 0x2cf6dbb62037dd35e7, 0x2363c1b9bdb847a8a8,
  0xa6d359a1c282fad7ba, 0x58bc96a1e9affd50ff, 0xd0a104bc6e32fad852, 0xb2e1f6668158b72013, 0xdf13c9932cb29f4a37,
  0x2f6663e101d038bdec, 0xafb6c3b9a657ddb502, 0x5793d313232f8dc2e2, 0x32b9cbb6bbdf472885, 0x3cac5f09f9b1e9dd05,
  0x21a3d7896cbe6e473e, 0x3e86a8f38489bb9feb, 0xeeb43db1d43381fd4f, 0x8ef4452e447423388a, 0x310635741609a68d97,
  0x69a9a0bece2e01faed, 0x0e73cd334cf32cb76f, 0x117a1020779f7da0b0, 0xdec0b0507fb75ad7d0, 0xdc8267b565fd90a862,
  0x7637554ae547b8453f, 0xd65a3fd86a38c05fa7, 0xc690602870fa823573, 0x837d02bd628d7a3d21, 0x693af23bd6c1f546c7,
  0xeea7f526dedbf25c07, 0x8e42aa61835925d9dd, 0x31ba181ce3910a9ea4, 0x0eca25e61151aad127, 0x21c55dabc6ecc7f12b,
  0x3e270a9c7603180cf9, 0x3c4dc7a4dc795d644c, 0xde8fd11ca1f1c8a882, 0x11120ca46646e8d7c2, 0xc60746e6b69e8a454f,
  0xd68fd99cbc64523595, 0x83129eabe15cef5f6b, 0xe39a643b13d12d3da9, 0x769af12693d9a2a002, 0xdc075c61b90c98cd5a,
  0x38223d8728a3015a04, 0x8d85cd80d8a9237dea, 0xfa6f5f1d4a866e9093, 0x47d5350f2073bb3752, 0x9f97458050b42c7ac2,
  0xdd4fa80fbdf4a6b8bf, 0xb7ada087b5ac81c0ef, 0xfd68d71dc206e982bd, 0x75bfd20d9b5f485841, 0xa51fe7482ba0e02f87,
  0x40e70dbf7c351faf70, 0x0548bfe73445305719, 0x2a0de0d2243de7b212, 0xdae01f30fba80d32ed, 0x17d230e029cdbfdf7e,
  0x7230481f1bd7d2d02e, 0x36619b8a52f92587d8, 0x7bab34e8a244c70fb7, 0xb31c2452efd40a8084, 0xae9c2bc8e8ce1880d4,
  0xfca429ef2d4c5d0f3d, 0x143b7ca28a16f51d13, 0x9426fb2d9884f21da7, 0x39e61b98c86caa87b6, 0x5eaa4299eda19b8f4a,
  0x6bc74d4eff93299a58, 0xfe5dc554ea13349abc, 0x8c0a277ef7e12b120f, 0x1e18baebe2662412bb, 0x5bf23a436db97c07c7,
  0x41f5a74b78b6fb07e5, 0x5625ca0bf8bc1b8f38, 0x979210f021c9bddead, 0x859202e53cd320d6af, 0xad08b0623ef6d8dcd0,
  0x6f1a607f8e04b57670, 0x22083f77316350c676, 0xd595556569cbc211b1, 0x681a676a0e9628e37f, 0x4f95cf70eec34a831a,
  0x4aca61077396465296, 0xc242e607f4045cc87b, 0x20a73b9ab4c3f18aa3, 0xd8c5a412a3c99e2d3c, 0xbd3a269aa9cb649861,
  0x28271c8f86f6d9efe3, 0x504dab12acd30ca2ff, 0xb5ba9c8f0663d1e80f, 0x3ad62249a176adebf7, 0x4ddc68e4b6836f0bbd,
  0x2776d58b13de4f4388, 0xca1197cce1dc85545f, 0xc5c66f71b911689928, 0x428385c466c6974e97, 0xbae34f1993d6d54b72,
  0xa7dead53bce3227e50, 0x7909e9c60ee3d76728, 0xdbb181d63edca0b015, 0x592e23113cd6cd0218, 0x03f3bbe36911355592,
  0x9174a676ee83a8cf4d, 0xc1be01de31c63d3f36, 0xec896edc8e765f60c6, 0x51332c8321de45100a, 0xae0c5d54d09212a8fe,
  0x7bf1f2432f959ad7c4, 0xb39ec74e5892123597, 0xfc64f54bb2959a5f0d, 0x1446aa99571a07a042, 0x36d918ebaf088f45f9,
  0x39d10a7e32088fcde0, 0x945c250bdf1a073dfb, 0x682f4698664eb28551, 0xd55864a2bc7ed0adf5, 0x85320cefb999af6fdc,
  0x22dfd152134357d50f, 0x4fd0f12da1eb582202, 0xad57d9c8934bdf4fd4, 0x97af9ee8b60b3268ba, 0x6fb25c8ae1542f971b,
  0x9e38b6cb748f88f935, 0x648dbc0409129dd458, 0xd9fa93c92e079d16c9, 0x5cdde163b19a884cec, 0x464766f6be9a88449c,
  0x0cb7b9c3f38f886cfc, 0xf19fa19689129dcec0, 0xd1fd13d333079d84e8, 0x36aa0b2552608ab1ce, 0xb3187e0aef3f5233a4,
  0x7b5d4ec7a210e87497, 0x94f543f298cf2d89f1, 0x14f24bf58a55a20976, 0xae0aeb18e8b0c82e82, 0x392599aac86798beb6,
  0xfcc7545d2d02eff34e, 0x2687a9deec06b1ba14, 0xa41da3dc03f4094265, 0xe680f411c1ac334d3d, 0x3b87b4d67986be2719,
  0x1c0f86e351a9743a5b, 0x9c0f067659b4f3a7e8, 0xab1dacc6917389ca6a, 0x61807383dba32ec58c, 0xf1eac6710b360984a0,
  0xd1f811cc4e7b2ed490, 0x64ffdce4993989163b, 0x9ee2e3194394f34418, 0x0cf7768b4b14744cae, 0x466dd6497eb3b16cd8,
  0xd9ed83c454fc33ceb4, 0x5c78de53ebaebef9d1, 0x94af325d4b40c5e28c, 0x3958d0f20b753afff6, 0xb32fb225eba5ca6de1,
  0x7bdf57185417baf884, 0xfc57df0a4e0527ed66, 0x36d058f59972a7ea9c, 0x1432afc743da4df77a, 0xaeb22faa7e2a42789f,
  0xc140bd7d22424c3a29, 0xdbda207aadca44a744, 0x912ab5824f4d6cba38, 0x03a52890d5c5f927d7, 0x5975c2b885ba844235,
  0x51724a37972716ca02, 0xec05d85a6f3ad4c5a8, 0x791750c068a7ce4d1d, 0x38ee0269be0b41a23b, 0x4731603ef34e1ec87b,
  0xfd21b03c0943feef8f, 0xfa3c3f21894b6be8a5, 0x8d0ecf8e2e7e568a9d, 0xdd3e673174548c52f0, 0x9f8e550e33eb5e98e9,
  0xb76910eeb1995b2dee, 0x93167565cc187298f5, 0xa1ce0562e4f217efb1, 0xe14cdae5492540a205, 0x664440f053aada2da2,
  0xb6f92a7f8bc7a5c87b, 0xbcd4177771f505e8b9, 0xb96ca56a195d2a5214, 0x13847270c40a758a35, 0xba96ecd3cc0bfacf03,
  0xa7c9599671548db02b, 0x3ad35104e44e9f3fb2, 0xc563dbcb19ebb76032, 0x4df6c1c38b7e3867fc, 0x42c30363534b4702c4,
  0xcacb91f64943dd1076, 0x270479c9c499fd55e6, 0xff460725475d42cc4f, 0xea5c07aaddc7cac451, 0xf7649af28d18a74935,
  0x78d98f0afaf2ba8be0, 0xed0c12c7b725c5e455, 0xe2f19af59f0a3a5377, 0x6dd18f18fdf52719e3, 0xf89e125d38aa4d710a,
  0x17b3fcbf2985e0c87b, 0x05ae7b303497e7524a, 0x2a36b3e72422d29857, 0x407b141f7cd5bfef63, 0x751436489b6f0d2d04,
  0x729439d21b681fa25d, 0xdafc940dfb4f30e88d, 0xa539aee02bad488ad1, 0x45775ab0ab1c2148fc, 0x5f70b85561268ebfc7,
  0xcd62c03fa49c3cd249, 0xa07f90679c613e1f42, 0x3d6a82601ce6310dce, 0x35e57d103ba469e7af, 0xa8f07a0226abeee02d,
  0xd76537cfe63b0e307c, 0xa01c2b18593b24a60f, 0xd7611baac1ab9b237f, 0x45a434c7916129e9b8, 0xcdab295d03e6346e25,
  0x5fe69b25dba41b2c8d, 0x3d9c240a51262bbbcf, 0x35267cf5791cfb819d, 0xa83bfbf2ec9c7c0132, 0x795556b811d1cf2532,
  0x513ffec0c6f1b05d1a, 0x03025b7ad64610f281, 0x9110417dde5c02f501, 0xdb608c82760c670a38, 0xeccf5e3783d955aae9,
  0x59b06b5adc643fc76d, 0xc1671e90e39e601814, 0xfee46f1d606d0947f8, 0x4149ad87b0f8befdc5, 0x1e8b4f0fcffff38db5,
  0x56c4978010f72eb74d, 0x6b71681d677889dd3b, 0x8c19d50f55ea749f5f, 0x5ecc858002e233384c, 0x5b5322873fedb1faed,
  0xa0057762f9ddfe5f13, 0xd7a57f6a168d8c3551, 0xcddaf0e5cefa41a06a, 0x3d1762776c476bd79c, 0xa8726570443856451d,
  0x5f2a6a7f849f1ea89a, 0x357570654cb75ecd98, 0x4540e5f0d4fd5b3dab, 0x44bfe0e72686aeab5a, 0xcee7d248a473399c4b,
  0x4c30e7e03b06b3a41e, 0x160d30bfe6a37b3bbe, 0x841fbf3061acfc2604, 0x6c480d1f1cb494e62a, 0xd4e048d2abf4361c7e,
  0xf9d21f0d9ca91461e1, 0xb4d8172167ddfe68aa, 0x86c2728e10b75e97b9, 0xa950053c60476b6fec, 0xac282a3ecf8d8c4f70,
  0xa3b5a531559f1ed51b, 0x73bdda69b0fd5bad93, 0xf42040ee3ffa41226a, 0x064a750e023856856d, 0x5614151f46c6e7a706,
  0x1e3915d2d1de3042d1, 0x417b1530f176484dc5, 0xfeb315e79e830d27dd, 0x5bfc15bf64e3d2c59a, 0x5e94150d5cdce03a47,
  0x6bae15e00c111fba50, 0x8c361548d9d6bfca42, 0x941b4207df820ba99b, 0x149bca07579099b471, 0xfcfb3a9ab2b84ba308,
  0xae344d12d07a54069e, 0x7b7ca79a2f3743ace4, 0x392bba8f32c07ef4e0, 0xb329c512587d4e86b7, 0x3624278faf5aeb73cf,
  0xc1b52a60e3af90d927, 0xecc2755583573746a9, 0x5950173fdc585a9e68, 0xdb28a567763282d14b, 0x03bd4010d62f7af1a1,
  0x9120da02deb27d6444, 0x794a72cf11dfb85c77, 0x51d805b0c6d0c00c3f, 0x5060677ffcf0315ebe, 0xb555cf65b3628e5b13,
  0x203fb07794653c1e91, 0xd867606a7be53e5636, 0xc21002f0366a69fe23, 0x4a0210e5397fee6ba0, 0x28cf5570ae770e41f1,
  0xbdb03f621470218c78, 0x543b2d26a3c0d0c9a8, 0x4be68a61b47db2c315, 0x7eabefa4868232f603, 0x0b9c521c73b8df96e0,
  0x436198e6a97a2fcb47, 0xeba4e8ab0690af6388, 0x991cc89cf43757041f, 0x4e26a23bac5a58d38e, 0x7790b56c1ff031b8ef,
  0x7f37c28430628e7daa, 0xe55a50ce48653c8209, 0xf0c0d8d4d270219061, 0x6ab84a16bf770e7ad0, 0x628228f90de53e37de,
  0x707d2044e77feec081, 0x657abd4ce06a695aa2, 0x99beb12252bfd6602a, 0x0bb1beadc830de67b6, 0xeb2e3385ef0d833fb4,
  0x4e74f34f2dd2e302ea, 0x7e332e97e81f11b037, 0x4389096f8ae7c65560, 0x54f374d5a248761094, 0x4b09896898e0dccf01,
  0x4843a2f161b84be411, 0xd24b2d64e6374371ac, 0x0d4eef9e267a548b4e, 0xe7998a461c820b539b, 0x307ec8d1ab5aebc41f,
  0x1f54e80c3b7d4e195f, 0xe00b985c9c909949d1, 0xbfeb52d9a4c07eccf9, 0x07cc2ef4888973efeb, 0x9a53bea99df3b4527e,
  0x8f8b74069dbe862d0e, 0x8f19f3869db106a27d, 0x9a49b1b49d74a9c87b, 0x07c433738809f4e8fd, 0x127109ac882ea398ad,
  0x12e489a38833ac8acd, 0x8ab788b6a926e1f0e4, 0x983888b9b43b66e5a6, 0xe8dd8866861cb66af5, 0x2dfa9d13acaba1776f,
  0x529f9dbcf4e613657d, 0xef4788e1069cb97fa9, 0xa2fd9d93a3a4bc62ff, 0xc88d9da173619370f3, 0xa6e5eebd64c54015ad,
  0x816a3eb5d1422a15c1, 0x2c6221500cba1715f5, 0x23773cd89e270515e9, 0xe9700ec25c3a751561, 0xbbf06920f14dda1593,
  0x017f3128d9caa51557, 0x6e658e4a46a77215d5, 0x5779598d23e61395b4, 0xafdb91dda69cb91a31, 0x2f91c1380126e192ac,
  0xd059ecfa6ea4bc0817, 0x32c10347bb1cb61a85, 0x585179fde9aba108bf, 0xdfec519f2c61939572, 0xb203dbb7813b669276,
  0x2966039176d163a549, 0x34e19103e3d9f62a32, 0x24a15159115c0472e2, 0x7c1379ecdc9ec917bc, 0x9bb9dbc1de64cbdaa7,
  0x1bb6c1dbd6f1c34022, 0xfb93ec79c60cd30548, 0x2bbc595183469675e8, 0x49772117a5b93ca3e4, 0x8b650e75dae18e7367,
  0xe46a31a575933e06da, 0x717f3e2a721331864f, 0xc4e569da05a1eea999, 0x19708e7240660ef4c8, 0xccf0ee4017bc69b4ab,
  0x53623c052ab621acec, 0x90e20fd5c2d7e3599e, 0x7d7887225045de7962, 0xb8f88085203511dbb2, 0x37ed8097bda883c13c,
  0x5aff1d6fb5a0dc910c, 0x82f70f4f4a5f765180, 0x7a6d87add8cdd6ec7f, 0xc0ea1d68283dc60381, 0x0eeeda401fb502ce0c,
  0x3c312aa5e0bd608474, 0x318e7572d2d8554ce4, 0x3e0e72754850cf44aa, 0xee3c170530c23f6c2c, 0x69210517bf4ab0f9a3,
  0x8e6940da0d2810d4f8, 0xb27e24ba3355d9a10f, 0xdf54294df3609e667d, 0xd0991bcabe025cb62e, 0x3243fba7893f6493a5,
  0xaf4b7c3a09b0f1131a, 0x574e34c574670ce1e6, 0x2feb2b272ecfd1bcdb, 0x580b9b42b11046b9de, 0x9dcdf43308012e2025,
  0x883da9b11a6ebe5041, 0x88358674922cf3c258, 0x9d45732e088133bd40, 0x9d5fa30995bb89b56a, 0x88a0b4be1ae9b1d804,
  0x9dd7ac8995a6092839, 0x88a806f39223744a2b, 0x0d241cbac73c9c2e66, 0xbf9b61421831e6bed8, 0x1f2b9c275d211c335c,
  0xd229a44df5eeab74b5, 0x4834abc5f269a4f320, 0xe77c3b3aaa8e2689f1, 0x301be6ca0a3e61b12a, 0xe0fb26a7250e3b09ac,
  0x2591cb47a0f2db4c08, 0xf559c99fd75d79d4bc, 0x0a7904fa45aa518410, 0xaa03c3dd3df5c144d0, 0xc7c1f6b7a80a91f99d,
  0xf251d38d5fc7ecceb2, 0x5ddb63383518036c26, 0x18ec96fdcd2559167d, 0x1f61b246246a1b3d71, 0xbf26d0641b657cd7aa,
  0xe0abaf0c7ce52935b5, 0xd29c57d134772445db, 0x303b58f19b70fb5f11, 0x481cdfd929622bcd3a, 0xe7a4329efbf034a88c,
  0x0de62f5c2b7f9ba012, 0x530a1c9c7958ebd5bb, 0x49189c1cecd07e4f84, 0xcc5da4abdbb24e6fae, 0x8bf2263b51df4b226c,
  0xc4c7aba4c12f5468ea, 0xe42561e691af99978d, 0x19f53b26595743ade9, 0x71aae66103320b8573, 0x7f9cba274fcb524df9,
  0x77ab4dc56804efa78a, 0x65e642ca85c98aba86, 0xf0263aa722f6a2420b, 0x62a4c54d6f96e83abf, 0xe53ba73aad632dca34,
  0x6a1c27bad5c3c8c582, 0x7061ca4297d39827f7, 0x713765561ba2553909, 0x49907f8c2b8a60aec1, 0x8b7af041fbe8109439,
  0xccc0626b29c8b0fcca, 0x53826a1e249867b3d1, 0xc45a77fe34523f7b9d, 0xe4b8705e9b2dcf36c7, 0x197de55b7cef0214b0,
  0xdcf6dd66f9ce03b156, 0x11cbb7b64c16c1f3c8, 0x76049fbc84f9598959, 0xe3968da1166c510994, 0xdec9fd93d444ec339e,
  0xc66347e16cd491be2c, 0x83c338b94484db746d, 0xd6d3fa13ce4c792e8c, 0x1d8455c207f14ab3a3, 0x80ce3f5012d9d89431,
  0x1d16cf4a0764c2aed5, 0x0f4c10bd9a0c2036ab, 0x0f4402209a9ebd39bd, 0x876c60b58f4628fc2a, 0x87f967288f5cb57b79,
  0x80d4b0d812d1501402, 0x1b8701a018366d2a2a, 0x290fbba8f27bf74040, 0x2b802345c7b3ed1790, 0x24802ccd5daef80588,
  0x340fa635f5fce2da55, 0xfb1d6ed7aa14ea7544, 0x7c1de95f2594ff72f8, 0x9b87813d0a3978a59b, 0xbb405bdaf10c20ae93,
  0x6e755e7246f14a7ba3, 0x2c05fe170cd1503983, 0x23176b059ed9d836a9, 0xe97256755c64c2fc24, 0xa6da4140649ebdb3cd,
  0x012a1ea5d946281412, 0x81a58c2ad15cb594e1, 0x439f1359ea0cd36269, 0x4b8d9351ff9ec9774d, 0x7efdbcecf85c04705b,
  0x4e3866dbe2d9f67f8b, 0x9947b9916df1c3f022, 0xebfaa179ed469665c9, 0x54b7e1c1f7d1636ae9, 0x0bddb6037864cbe5f6,
  0x2f2c23cdf65fcce8c3, 0x57bba6a8c93d8ba2c9, 0x32e96e5fc345e49893, 0x580181a004a8495286, 0xd081013d963553c87b,
  0xdfa6bb35d3a0192d5e, 0xb2232c4563d7c4ef5f, 0xaf6ee9d7cbcd718a65, 0x603519f737d7e39d4e, 0xcfcdcced7d3511888a,
  0x10a04978c0cdd69d16, 0xb0d771ff823dc688a0, 0x5545c4f87aa883884c, 0x3f5fe4ea90a0dc8844, 0x023d536d5a45de9d5a,
  0x67a88be2b85f769d20, 0xf6de22be8c6f4908ef, 0xd38397336badcc920a, 0x04c668095e4fe41aaf, 0xc3e3d5f341978b95c0,
  0x63d6adb11e68530847, 0x96dc6f8956d5711a39, 0xcb764f745b851995b2, 0xc911852efe22c49246, 0x887f828c0f4e1e5743,
  0x9d77c0fe1d4b6baf54, 0x886a901e0f548cdf50, 0x9d625a6b1d43fe3267, 0x88e57a5b870b41583b, 0x9d70375e807e56b26c,
  0x9d65b85680eb5e2f49, 0x88f07d4187995bd03e, 0x7c78b4b159a66d2bcb, 0x9bf8733391e9ed348c, 0x34ffac09c123ea1b28,
  0x2be20674ec01f7fbb4, 0x1bedf42e036ef82920, 0x24f786f37981e27c89, 0xfb6da9be51bb78244b, 0x29eaa389db2cff9b39,
  0xaa8838c13d43ddeea6, 0xf29dfaec5f548d3c92, 0x0a9d9f51450bfa8e03, 0x2588b7dba04b47690d, 0x5d884703357e383135,
  0xf59dfd79d74e9f218a, 0xc788dd91a8ebb73e8b, 0x189d8d59cd99fd0e0e, 0x65fc483625e9b343be, 0x6a14e0ae18017b0b9f,
  0xe5ae0d94f2bb394e73, 0x6236307bc723147ef0, 0x707bd239aa6eae4bd2, 0xf0b31f14f5a6365463, 0x7739bffc5d2c94ebcb,
  0x7f94e7b30a81fc99d8, 0xab7cf2f5e43f645154, 0xe62b0a18c455d97966, 0x3b9baa2553025c0347, 0x261b25aa4910469136,
  0x6124180acccfd1ece3, 0x9c345dc719609edbb4, 0x1c29c75d8b670cc10e, 0xa4fbf5f271b0f1591a, 0xd52041f0a75d4c7bcd,
  0x6f4a5665caf2841478, 0x85d8fe77c518ceb39d, 0x4fbd5be53ac744fc00, 0x68c25e7042f5169433, 0xadb51e6aba25f9399f,
  0x22288c7f27aa6c3671, 0x97506b624d0ad4aef5, 0x395d0caff169a44f80, 0xaef2f158468e2668d0, 0x1418d9df9e3c9c970f,
  0x36c79e3264eeabd5fd, 0xb3f564d05c0e3b6fe4, 0x7baa46b2d931e6adc1, 0x940ad1570c211c8595, 0x7297c4cc69bb73b952,
  0x056fe4713101a36605, 0x402253493c23a9931b, 0xdaad4953212cb413da, 0xa5d5198b8e6e86a1c3, 0x7585ccc4eea6f4b658,
  0x176871e43e81ace130, 0x2a4f8b190ee906bc3d, 0x41b3ae48f14f300cc5, 0x56fc7be746681ff115, 0xfe39360d9e97e7d9cb,
  0x8c9414bfd9ad484671, 0x1e149430d122d25c87, 0x5e7bfce05c6f0d6474, 0x5baeb3d264d5bf9eda, 0x6b36391f0c85e0d143,
  0xca8f570a835eeb930f, 0xa7072f25d65b996641, 0x2712af5de31e4eb6e2, 0x428fdf1811567e13a4, 0x4d9ad0f5c6fe43a1b9,
  0xc59a58f2dc6b4bbc1d, 0x3a07b2aade410be1f2, 0xba1232c7768c54b95e, 0x74a7a24bc99c7c3d8b, 0x09ca8a0bcbab9bcd16,
  0xb127527e043b24a866, 0xbebac8eb96262b351f, 0x89429899c3a41b45c5, 0xf33a2d43d31cfba06c, 0x2e4de84ef6e6345f55,
  0xfe290c34ea8d54648a, 0x6b349e29ff9f4ef12b, 0x8c24d12bf7387e9e5c, 0x417c64fb78474b46e5, 0x569b5c1bf8fa0bd94b,
  0x5e1b469bedfd99d119, 0x5bfbf17c6ddd435c91, 0x1e2bd924e2b7eb0cdb, 0x6b7f1e6094da6c6541, 0x1e655e55fc1784f0ec,
  0x41776b3f3972ce7fe5, 0x5b62feb03675d46ad5, 0x8c7056cf7b0516e576, 0xfe6a8c671440f970ef, 0x56e54102aea5447701,
  0x5ef05b10b32a4c6205, 0x358d96d30e1e9fdcea, 0xa89f04c98e8c8dc646, 0x5fddf6c33e6b47ded5, 0x3dfdc9962141fa11eb,
  0xd74763cb31feddd633, 0x4538c363ee5eb7e38f, 0xa0fad3043c5bfd837a, 0xcdb7cbf66956387654, 0x16258ab2c479420a86,
  0x44f5a25849913a2556, 0xf90a52df19dbba5da4, 0x84aa982fccecca1850, 0xcec7e8af7159c5f54d, 0xd45def32e4514df217,
  0x4cf22dd05303a7aa61, 0x6c18c8578bc127c71f, 0xf466c1885b5eb7bb67, 0xa3b903888cfedd810b, 0x73e1db88415638a6a5,
  0xb4bc799d6b41fa23eb, 0xa9a1ec9dfe5bfd2cc3, 0x0693599d5e1e9f6e6b, 0xacb691881e6b470124, 0x8613519d568c8de9ae,
  0x6da56082529b7fbffb, 0xff75cf3798fb70e007, 0xf7da107da234f04864, 0xf817b05ae82b621f02, 0xea7255b88a7c65e733,
  0xed053fc0ef24770d32, 0xe240027a2d29e5d22d, 0x782a6790c81b6a30b6, 0x45085021abc8b00dca, 0x359220693be810d299,
  0x3d1a28311c8a6030d8, 0xcd08d83ca4523f1f6c, 0xa892bdee26ef024828, 0xd795c20ee62dcfe72f, 0x5f954a8e61a255e091,
  0xa01ab53e9c9867bf71, 0x0c036688f3c8c360ca, 0x9e91e1887452cb6726, 0xd151a19d3398d35588, 0x6479139d09ef04b02b,
  0x5cdbb988b12d6310ac, 0x46c1b688bea2f602aa, 0xf1ec939d89e8963fc0, 0xd959bc9d2e8ac9cf89, 0x898aaa1bc3af99ccc5,
  0xbe52182b9658eb8b3a, 0x742df57cc9df4b499d, 0x0998259bcb320bc473, 0xb1c80a2404d07e1975, 0x33e85d29632f54e46b,
  0x2eefc734f6b24e7146, 0xf3a2f2fbd357435349, 0x835bee7a62c9bdbe64, 0xa99651fdfe929d85b5, 0x5a34afe8e9795d263c,
  0x213ea52ae720671641, 0x308a99610aa5ca8179, 0xc9acd7dc37f3ffa52d, 0x33c5ef54636129d718, 0x80c163c392c2cb863f,
  0xa36c281e551331761e, 0xfc255c2fd13e612212, 0x1b2385f803a32e3245, 0x9c8dc979851bbc5ee6, 0xf0a0a981051153a11b,
  0x96e4e97156bb898c6a, 0x80dbf6cb924ac3061a, 0xe3b8cfc2f0dd37cdc8, 0x459eaf2991cac7acae]

end Verif.Model
