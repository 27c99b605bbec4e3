import Verif.Proofs.Sm9Eval
/-! # Kernel evaluation of the pairing at g1x, g1y, g2nat; written by tools/gen_sm9eval.py -/
namespace Verif
open Spec

/-- The value of the Miller loop. -/
def genL : List Nat :=
  [0x15bb11feb57cffc11b4b56c7fcb4307beec982dc63908a3b65ffcefeeac3bed6,
   0x15086b8b9de59b06555fdfee59f7eb1923d99cacfa4b3ebeb6841de52d541bff,
   0x271ca99b02e649476f3365a5d3b70af00e1a5a2cec068d33bf44be4ec332665f,
   0x4f41f2dfa368d987db1529389a6b724c66d50205e556b5e1e7e873f060f84828,
   0xa0b65870a699aed821dbbf3160a8c0eb64165a6b7a09736152291d7d429d8096,
   0xd9a04059c5aaf554cb0ba26ce4567f17f94bc4b012c65c7c3c2b89f888cffa7,
   0x2b44c61ec373a939a3f3610699f4f2b2742a154bd53a1096796abdbf398ff845,
   0x61304b67b376a9d6d1bc6961ad51cd3c364ef80035e34357df3beb5a0a74e3af,
   0xa434f2bfa1fd31d42898ea24520fb80f546698c2ab3568c011f2e0f336ebef0c,
   0xa5251c482a3a9c008da44994af4546b43bdfdd4850bc0a342ceb027dbee3841c,
   0x36d25dfc19434a12adfc91324ac797cdbb76b88e60c42656a5aaaec81035be58,
   0x7aa34c8737f2d8b75b2763f78b8a278d77ea1bad901a4872d03396a4669aed67]

/-- Its inverse. -/
def genI : List Nat :=
  [0x3a457b821fbe785e3acc78550a8e586b1583833f3d1c864b66a0c4f4cc5c8d93,
   0x67fcffa45a3a179689640b0187d48bf96f899ca59cc98d10cd4852ac3a578227,
   0x2a18281781ae473085ffa7c8491445cebf52e63bf93e067528fb270a654f8cbf,
   0x7d70b0df12a7e6f9fc5be5461040360a554e594c733b3ef5e645f2ce1dd3f9f6,
   0x249a89e0f83dde0737a9dcca261e14150772e0cc0773e5505157c930012fbf82,
   0xae2f2ea4bf990d1ab8b69890eeeefaeb9be5a756842df36fe69005f1f39c9389,
   0x3b29ec0ca76ee6ce1f90088c3c7bc391fb3a23205c071c3e23416e4073be19fd,
   0x36c8e7e7d9b5cd2365ceccea62fe61aa485aadf38b264abd76f85aece6869a06,
   0x9d2040f8af997cbe0897af890b753d1ebd273ed0705bb3e2380f642ccc147f55,
   0x7c21db4e7d51a3a4e100bbc6900040b13da74b0f7456e94d21162aa4f77dc9c6,
   0x51990279c9ceb0b16280ca9106c1b5ec20299df235e665287b955d2d252ebcf1,
   0x3c166f1252147c12a877f0f219f2f36ec8e1bc12c1fdc315a198953dfb183992]

/-- Its power with exponent `p⁶ - 1`. -/
def genB : List Nat :=
  [0x594484626b6c041365cc5bca0915508b4b72c11f42808ef74ce2cac0ec06ebc9,
   0x285934d8b83d919206cce2ed1a9f2505bc9e159d33131b8d783a226c82bdc28f,
   0xa6c1d37266e4f819b5a9f0079aa19fdafa281d5aeed4e7c5affbb9c76d927162,
   0x7c210d0d108093c7bd53fb84e84304c66ccfe6ab5e6f89ef9b72d531e38083f3,
   0x9212960928a26fadd04bbff5048cd63a7c4a3c4ec83c609583567afb74ba3076,
   0xa5436bd0dffc817139c4d811b3ca7a5ed047adc3af3a9a02d86d4078c7a05dcc,
   0x5c9082c528cea35942598a9f736aa36a0bccc9c5c4df165d44341abedd23fc59,
   0x92be69d2a9c24cc3def688276096845301180c8a98442f0d67a0114bf43ab2bc,
   0xa82340a1f0e723b0a07b01cee9cc1c2e6bc5da9f4737fca933f1ef7ed9529002,
   0xa544c96f4de7a5ff1b59a648462cfe9291e016c74b2226c5ed4c037d106f5d65,
   0x4b369f503a3f190d3788597ca67d4c295e4e857ffad1b4066406950995589d26,
   0xb18df67bdd71a00613564cea0a9693b895e641e3c37eb443c4643c3f9ffdc303]

theorem gen_miller : nMiller g1x g1y g2nat = some genL := by decide +kernel
theorem gen_inv : twMulR genL genI = twOne := by decide +kernel
theorem gen_base : twMulR (twConj genL) genI = genB := by decide +kernel
theorem gen_slip : twSlip genL = false := by decide +kernel

/-- Stage 1 of the power `(sm9p ^ 2 + 1) * 0x2400000000215d941`. -/
def genC1 : List Nat :=
  [0x75ec9708b0b3946b3e5571037d86c2c9ebc65ed1f8a85c00da8ad097ddc3eeb8,
   0x11f6ca6911676c22f274afd462691d726586c79e55192d9dcd304f349b46e952,
   0x58134660836200f432c3f6cbc81472b46b786bee769f9e7a96a209526dbd16ce,
   0x5a2725ccbbc7895354bd7c1da58927c4d5e3b3e44cbf52e65c6d64dc971badfd,
   0xa5c4e9e221e4d3873878629c275bcb734b2ef39a6c9da4f8ed5df68c67ae51b6,
   0x996c14dbd6d03710c7e5a2819cf65388c9064b3e224f5a35301dc498bc649b69,
   0xb020139db839c4b6e1d5148db1da85efac382659016c33fce15faa90cf42734a,
   0x94ef82cb13f0a3c36765ce4e22613f6d2b468db77be963b24647b5a1b81c2a2d,
   0x2eb2be6d29d8605906ef48be4d24270bca9ebc5d2f30766f9d8a53515b1753bc,
   0xcac7f98390381cdd794cbe3c3fc8e5ab7744c96aebcb2be9300b56e45506396,
   0x58cf011486f8c20cf6f3d0c56479cb8c912fb59fa73a307e585baa863a5ff6da,
   0x94921b6377258f3b2ebd24ce8ae3247b0ec993496929fa7fdbd4350e9aca6b48]

theorem genC1_ok : twPow genB (msbits 0x8fb79000260c606ed7a44e529b2d6828a6dedb7d8882fdc 190) genB = genC1 := by decide +kernel

/-- Stage 2 of the power `(sm9p ^ 2 + 1) * 0x2400000000215d941`. -/
def genC2 : List Nat :=
  [0x8356c0236a5ffb3e6e13bba369b491433904fe21bee01ff98c4e45f64f3e52be,
   0x9061b1a2a8c69d35c195367f906c328bf343a643875609d8777299d5d877065c,
   0x28cc16c50d93b392659951c9bdcef36f054d50d1ca657474753b60dd4b1cb8d4,
   0x3fdfdc6387184d3a61f8b311bc4b397da11b7925a0c0da58c26c19a240a3d23,
   0x483f9822e28a0b67f84b9deafddb681c68562e4012963f3da9c69712b156a601,
   0x6375fd253ea0d4074c6de2d32ba7866295fe97268091af91a3cee68a0cc5cb63,
   0x4810dd4d6c42ba5e75f71350b682b11caf82f27530f175993a0fc83c2fe6c106,
   0x5cc63e75012dfa3746d1fd30c343028e51c85c27e0164ee988cb81bf6bfea5fe,
   0x522b62429e9e9f71e8c117588de47c26e49c2b62b05afa5665db8115c84d00b9,
   0x543f5dd20744eddf5f7e5561781b3954f79f57551a9f4778525cc1aeda643efa,
   0x71d89eb166e636f394c120fddd5b31235f67d7626e7641e195167666b3c6f993,
   0x308360c2ea61586446267bbde6669dc154b5c5c9cec8ca2a2b59b6eabdf47bc9]

theorem genC2_ok : twPow genB (msbits 0x841937b54e916ddcc550936da7e4f2987b33b98b1fbb620 190) genC1 = genC2 := by decide +kernel

/-- Stage 3 of the power `(sm9p ^ 2 + 1) * 0x2400000000215d941`. -/
def genC3 : List Nat :=
  [0xa6d2b530b5ee5839f7c2b565255b2f5ac0cb00d733c7a73c6ead8d2a2a603f9c,
   0x68acad801ba3fc8fbcbd6a7205468c44a056a917b4f4f6330b871578f33183d8,
   0x685207b12da756235eac46cb39b0f5c894dab34c197f0b024056d1f0833213b9,
   0x1a701806485efe5dbe1365ff21314c815b3ff634194de35ec4c5aab55ed13a36,
   0x487737a4aa1aa9950c2f50f422db8a530fde59dfddec67dc5bc171a71b501d99,
   0x836fc6f454b4a111710a65d061bbe59efb33ef7f2857e4c2cfd0dcdd260e6dd0,
   0x90417ee70edebf27cefcae547a7db8ca2bc407e117f3d63409e14284e79c02da,
   0x261182445e6d86fafc7dfc76fd360f0908c9c77354814f269e28adc8a226bfa0,
   0x24025bb543ccb50331c9875cca6279feacff03baf701127e999e5880a0981cb5,
   0x7e7c636e63dfa6e5bb7be68ecb2f8b36f6a0a848d41c086283d0f3631d22d177,
   0x4c5fdc1e1090f72f7a4471abfea08feff8a67eae8c1abb5190fcdd49a5afd15a,
   0x5d5fb6b5131a7e8fbbacfd98f5134a93e9e63b087501bffd12ef15966c79d385]

theorem genC3_ok : twPow genB (msbits 0x310c8f155ef399b4f85c7853d243ac359310a51ba190ff6e 190) genC2 = genC3 := by decide +kernel

/-- Stage 4 of the power `(sm9p ^ 2 + 1) * 0x2400000000215d941`. -/
def genC4 : List Nat :=
  [0x2a856f473d18f56512e5d014568ffa8e9406d4e6885badf2c6bb17761445045f,
   0x9ca6bf1a10e209dc7a2bab88e0a2a169fa910ce1cce4fbd277dfb5d6b83b8dbb,
   0x24860f83cffd94a9a8ca4f80a175822b4762c6d66c6854e00f1950a0e771214a,
   0x7baac6e8c6d54a91802752a4ee2abd759d8551721ec1cecef5b14c94918dca87,
   0x4a7a0c89662a7f5f781b38f897ade8d1c917510d5b1dd325d021d877fe3f6d9a,
   0x1a7416e41b518979fd39d59eaebe0a99fb05791c78bf519814501962d597d851,
   0x49e7c9b36913a8c4511cb24ee2cc23539f4fa627ce3473f7a67cf4319cd8b8d2,
   0xabd1c736683871cbf68646a3b17f68ff5776b146c7aad3c1a2bc215ed7cbb29f,
   0x865ec222d6709e90d788e092a14fad3aa2b94a1b571259605576c7a15defb25b,
   0x299d2c81327e9f65afe47ca90ee928ad361c01cf2e2b786eae41fce2e79af468,
   0x2d5796616a3feb72ae0be09e0216bb0803536bd8ecc8e1c8037536685f71aa18,
   0x25ecf3e46dc2e81a92efbf7ba8ee2e83a023bd59d6319914a7e676213e7bf72e]

theorem genC4_ok : twPow genB (msbits 0xa 6) genC3 = genC4 := by decide +kernel

theorem gen_slipC : twSlip genC4 = false := by decide +kernel

/-- Stage 1 of the power `(sm9p ^ 2 + 1) * ((sm9p ^ 4 - sm9p ^ 2 + 1) / sm9n)`. -/
def genF1 : List Nat :=
  [0x55b26dd31b607aaaa3b2f1fc8e97390271d104b3ac21a836dca2dc47ac389833,
   0xbca092f6f7d8aee20caab4cc1ce754de0d2e3d6b06c52f400a6fbb444996ef7,
   0x6f49e7d596e365d31d20240c5b2cf9608488386f47e67ad3a883a529d6dc5491,
   0x7891d99ccf465c708ae781ebafce4ede075164c55f57970a770870547655b58b,
   0x491493bdcef85ea0197423dbdc5ae14cd79a2fa4a5e21f8239938a5cc4dcdfd0,
   0x85e086003525fb93508106711a5efe64ee222d96185b47e3f5f36ed671ed84d4,
   0x9264141a868659e3424a8724960ee01e478333e162203662d1eab7abd362009a,
   0x4d602e87dfc571c9f72106b2cd60d0b839abe408001c4832e956d8b64d943ab9,
   0x5bbeb4bcff63cfa67001a13cae2c6ab00319d195a5e6482c48637584efd359b9,
   0x9ca86abf757b26949224e6cbc876dfe6d426f7315220c92651b2374dbe830f46,
   0x7636fe0b75948f2f0dcbddc2011004e41521bc2d436789fbb3a89b37ee5fc6c1,
   0xb5e1a932060d22ebf2f4b608ca4b4037a4c2c291b3cd28eea592aefc085a41fa]

theorem genF1_ok : twPow genB (msbits 0x1da0e1e543240905384c2e939c6bb2c1d665f9aa2672f63f 190) genB = genF1 := by decide +kernel

/-- Stage 2 of the power `(sm9p ^ 2 + 1) * ((sm9p ^ 4 - sm9p ^ 2 + 1) / sm9n)`. -/
def genF2 : List Nat :=
  [0x5dfe563f97c5470fc07ca51ac424fe942566c967bd03dd5321a16cccdd5995b4,
   0x8aa3a10ac8328b6492383a1e2757dcab6a7dae4261be74f3b8735ece4c661a16,
   0x5697db194ffd6496da90fb763087a7e57d4c49d2f23a433b73c2b0b503709f06,
   0x4534f46b5863c19dfb415b0cc2884b337ede0569fa5f60ad38c897acd61877,
   0x4212ad7a391b58ae3f48b8a3e77a0b9132eb3caa7cf4823fa9c93eca8f01ed07,
   0x8815cf28c044edf073f8e630ee84ae398c3cf01b2ab43643a97522933c383ef1,
   0x8c30da3a2a20c5fa4e22a613bfa57862b6ef7567e0ae6268a700ddadc2ca3e8b,
   0x9ff4704b49ed16bef351dff811504f64437c9250272b17951f138e4482fc6286,
   0x7ba44aec3db6acc354aa059367a4de8bdd18f1034080bbff1859dfd334ab484b,
   0x7f17f9d3d652e90eafe35790b6de0a2b76dfe10668f2f9d9e9989b144183d6d3,
   0x7bb122706e02eafbdfc58148ebd6e572c1875efa41088c6d7f099b7935c044e3,
   0x5b59f7f29a195de19c09ee388a2967175cac511012a51196ee98d7e1832e1bef]

theorem genF2_ok : twPow genB (msbits 0x2d025408c2b8a6a53ac6568a33a71fc949de88f4948a1b97 190) genF1 = genF2 := by decide +kernel

/-- Stage 3 of the power `(sm9p ^ 2 + 1) * ((sm9p ^ 4 - sm9p ^ 2 + 1) / sm9n)`. -/
def genF3 : List Nat :=
  [0x75d21a6622d212dbf1b7da94a2572222f327dddd9ae29f82f0740f847ee6b2a7,
   0x3f8bd10ba79af4b6f7a1f3ae37177196790fb2834fdefe5934e9f6d438381e02,
   0x3e9489dc6675135ce8cca6175d3f5f1b38deed65f8ba598996535cfa12d280c1,
   0x7173849253541c06e55e14084e91fe05f124a5bc7cbfb4ae7c5aea2807c38fdd,
   0x9da8ba7e2b856510b4c2856e3f889f142373283b14e132b29620e760726566e2,
   0x1903633186c58862c4d599db345e6782706a6104b9b6959e212c24086744ab0,
   0x6b7199bf3d9807873f940434ea5fa35029ddb68f2faa4e1fece19dd93572f8b7,
   0x4b34ac3c1bda9407845d7fd06618d1e36ba1e34351ca340917e3f1446f64e710,
   0x70b720c9e92c85301df7d9bf872a506063c117417d35e31beaef130e5ddbe0b,
   0x8aad7c8c248f70b0a34d2b727001eb440278f53f5dbda1ddfae69dc6b1798fb0,
   0x4e738bd14cbedce46c02c81df8f256da32d30bc00b579eba0d202e3ca2a8b07f,
   0x135a609ce4501b1e968bd6136cd39124b2690b26bdf5e155dfe7c76044a0d9a]

theorem genF3_ok : twPow genB (msbits 0x3bbcfb12d6b0b9618bf107c9554d9ef3da15ba2d38e54976 190) genF2 = genF3 := by decide +kernel

/-- Stage 4 of the power `(sm9p ^ 2 + 1) * ((sm9p ^ 4 - sm9p ^ 2 + 1) / sm9n)`. -/
def genF4 : List Nat :=
  [0x4eea12d4e5c43a838c7fe7ac46d377c81dafdf92125a124d8ddf527ba9ec14cc,
   0x91e8f2b8f0a67ce5e3c7f8f14c8cd088741ad60b35906263d4f336a19ceb14db,
   0x1bc7bdb33557891bceee3c27622793406283872af8e72889e405b9c23837451d,
   0x10294cf40136c6e6f170eee17c3f41ee3f080176f3c0302203fd7ed5e4e1d071,
   0x2a746d59ec41d971b4cb4689ebe70ed54403d69c618d4fac8496016d26dd2eac,
   0x9c5a31c1c885e75ea581b524d4e63e1a61625211a8f4502cd69ea44579e7497d,
   0x8d4f08a5aaa5844153d4b31208e15e1f3aa68cc4f27da94e68ba03da38fa1312,
   0x5a008dd485ee017845b766aaddcd344dcc9dc7cc2365db843150d44fef342dc0,
   0xb6154cc87ae91b6830ada67581393883753817dcc8cb3e82ab8b5594b8344929,
   0x5416f1389c05bb801c85c13d31aea41f233746dd6dc81682dfb2a84c5df8ec53,
   0x681ae27016d20905526652d1af55d2f9d451412625a601cc8d0f896b7807e303,
   0x5dd1acce4feb7b1dcf1657748c9b1b5406427a654faf11bb1ebc6eb8811e1946]

theorem genF4_ok : twPow genB (msbits 0x34b3661a61069ec60bb8db704cfbbc02fc830a85739f38f7 190) genF3 = genF4 := by decide +kernel

/-- Stage 5 of the power `(sm9p ^ 2 + 1) * ((sm9p ^ 4 - sm9p ^ 2 + 1) / sm9n)`. -/
def genF5 : List Nat :=
  [0x3345ace19105d930fe551c6551d64811b0ebff409ca514545f5bb7339f0bae05,
   0x67e7e55da7203664c343034b2038dc97b8d10c96857bcdb9af17e24fd533a3d0,
   0x581a8dbc34f1fcd538412dc18ce41ee8d179fe136b0b35e5a2625636defa7a,
   0x5939a7bd8d55a5a54a0571abbfa3a40cd85dcc0054e9925d10e21ad184725d70,
   0xa91a158c5bf8a752ea3cb7f91ea3b80f4d0a762a1fe7074bfa7e13a5c46404b8,
   0x1ec0bd94d868318292542225c0c78b638827fa7c53dc40dcc1d51d572dc0fb4e,
   0x5761b91da2c0906f543c0eea6d48422039fc82b0eb6016f24f9254ef42a05370,
   0x107c0078bc11d9dc6058fdb57e345952e80a3516571f17dfbbc635b0809edd33,
   0x36fc8b01756b635e86e3a81485e1fc6f3d504cf113fc655113b93e772be13466,
   0x4cba2827aac0dc5aab104875d7b942a756ca952d5231d3f7529b0f9797f33324,
   0x7e245991f8c9c7632ab2062679cd1dcba2941ae3b768ea4139d10b40cccf572b,
   0x225db1f2cc5f98f291592bde078099e579bc4944d5d03cab353de65a6b7e0e58]

theorem genF5_ok : twPow genB (msbits 0x26bc822af7b98330af2c9b98cbc8c6c402821483b678569f 190) genF4 = genF5 := by decide +kernel

/-- Stage 6 of the power `(sm9p ^ 2 + 1) * ((sm9p ^ 4 - sm9p ^ 2 + 1) / sm9n)`. -/
def genF6 : List Nat :=
  [0x70bc96cdc8d986917e150beddcc96009758622b7f4363bd55a91667bd2e269db,
   0x2b38c4665b9c7d60bf96f4387b6c6f35e46139b1a39ac66f41c014c59ab2f11e,
   0x90ff80b199847e398044f552cf5feb154c0d1edce282c66ceb734ec90fb5281b,
   0x11acef52f7646230e77a73c7ec470c18b08c858c437c4daa47cde51c7d82e19a,
   0xa58ac9245c1de9f82aad563e8935b33d2f116ac495c940c0e66fbc439e2411b0,
   0x1aff7628b5272a377debdab4022bb369f423569fa914ee9c6a8f5f3ebfc54905,
   0x69834a9ab60368592da4ef02d6a2e1c198c499ba213e92dd4c7b1a338649d490,
   0xa3ece6778f8fa35ad224886fe754656119bf27c8ec39c7ff5f98a043702052a3,
   0x2ae071e150d1b52d8bbc57a1735c805503454ab13e9ce4a23fe8cf6e430187f5,
   0x172208e77892b83ef6c10b4c9a2ebd9a7fee9025803130751680f8ea1714b807,
   0x537865bd90ea47ce8e91f1a4df4c4564a0279dbfada986fca5f2af46341ee40f,
   0xab1029e50cdb394d0edecb916ca6e6183ee5373e32222255e9628d9030aba84a]

theorem genF6_ok : twPow genB (msbits 0x1a25037b3adff703054783b77a47494ecde97bb3d01e0453 190) genF5 = genF6 := by decide +kernel

/-- Stage 7 of the power `(sm9p ^ 2 + 1) * ((sm9p ^ 4 - sm9p ^ 2 + 1) / sm9n)`. -/
def genF7 : List Nat :=
  [0x36a699de7c136f78eee2dbac4ca9727bff0cee02ee920f5822e65ea170aa9669,
   0x6fa6b6fa6dd6b6d3b19a959a110e748154eef796dc0fc2dd766ea414de786968,
   0x79d0c8337072c93fef482bb055f44d6247ccac8e8e12525854b3566236337ebe,
   0x1664a1366beb3196f0443e15f5f9042a947354a5678430d45ba031cff06db927,
   0x3fa7ed741eaed99a58f53e3df82df7ccd3407bcc7b1d44a9441920ced5fb824f,
   0x167b0280051495c6af1ec23ba2cd2ff1cdcdeca461a5ab0b5449e9091308310,
   0x7f7c6d52b475e6aaa827fdc5b4175ac6929320f782d998f86b6b57cda42a0426,
   0x7fc6eb2aa771d99c9234fddd31752edfd60723e05a4ebfdeb5c33fbd47e0cf06,
   0x5e7addaddf7fbfe16291b4e89af50b8217ddc47ba3cba833c6e77c3fb027685e,
   0x8ffe1c0e9de45fd0fed790ac26be91f6b3f0a49c084fe29a3fb6ed288ad7994d,
   0x82cde173022da8cd09b28a2d80a8cee53894436a52007f978dc37f36116d39b,
   0x256943fbdb2bf87ab91ae7fbeaff14e146cf7e2279b9d155d13461e09b22f523]

theorem genF7_ok : twPow genB (msbits 0x1b539aaac423bf57830ffb16242118e5e52 137) genF6 = genF7 := by decide +kernel

theorem gen_ne : genF7.getD 1 0 % sm9p ≠ 0 := by decide +kernel

section
variable {K : Type} [Field K] [Algebra (ZMod sm9p) K] {w : K} (hw : w ^ 12 = -2)
include hw

theorem gen_C : twEv w genC4 = twEv w genB ^ ((sm9p ^ 2 + 1) * 0x2400000000215d941) := by
  have h := ev_stage hw (ev_stage hw (ev_stage hw (ev_stage hw (pow_one _).symm 0x8fb79000260c606ed7a44e529b2d6828a6dedb7d8882fdc 190 genC1_ok) 0x841937b54e916ddcc550936da7e4f2987b33b98b1fbb620 190 genC2_ok) 0x310c8f155ef399b4f85c7853d243ac359310a51ba190ff6e 190 genC3_ok) 0xa 6 genC4_ok
  rw [h]
  congr 1

theorem gen_F : twEv w genF7 = twEv w genB ^ ((sm9p ^ 2 + 1) * ((sm9p ^ 4 - sm9p ^ 2 + 1) / sm9n)) := by
  have h := ev_stage hw (ev_stage hw (ev_stage hw (ev_stage hw (ev_stage hw (ev_stage hw (ev_stage hw (pow_one _).symm 0x1da0e1e543240905384c2e939c6bb2c1d665f9aa2672f63f 190 genF1_ok) 0x2d025408c2b8a6a53ac6568a33a71fc949de88f4948a1b97 190 genF2_ok) 0x3bbcfb12d6b0b9618bf107c9554d9ef3da15ba2d38e54976 190 genF3_ok) 0x34b3661a61069ec60bb8db704cfbbc02fc830a85739f38f7 190 genF4_ok) 0x26bc822af7b98330af2c9b98cbc8c6c402821483b678569f 190 genF5_ok) 0x1a25037b3adff703054783b77a47494ecde97bb3d01e0453 190 genF6_ok) 0x1b539aaac423bf57830ffb16242118e5e52 137 genF7_ok
  rw [h]
  congr 1

theorem gen_right [DecidableEq K] {p : Sm9.A} {A : Sm9.A2}
    (px : Is (Reduced sm9p) (fpDen (K := K)) p.x (g1x : Nat)) (py : Is (Reduced sm9p) (fpDen (K := K)) p.y (g1y : Nat))
    (ax : Is (All2 (Reduced sm9p)) (fp2Den w) A.x (ev2 w g2nat.x))
    (ay : Is (All2 (Reduced sm9p)) (fp2Den w) A.y (ev2 w g2nat.y)) : PairRight w p A :=
  eval_right hw px py ax ay (by decide +kernel) (by decide +kernel) gen_miller gen_inv gen_base gen_slip rfl
    (gen_C hw) gen_slipC rfl

theorem gen_nondeg [DecidableEq K] {p : Sm9.A} {A : Sm9.A2}
    (px : Is (Reduced sm9p) (fpDen (K := K)) p.x (g1x : Nat)) (py : Is (Reduced sm9p) (fpDen (K := K)) p.y (g1y : Nat))
    (ax : Is (All2 (Reduced sm9p)) (fp2Den w) A.x (ev2 w g2nat.x))
    (ay : Is (All2 (Reduced sm9p)) (fp2Den w) A.y (ev2 w g2nat.y)) {f : Sm9.F12}
    (hf : Sm9.miller p A = some f) : fp12Den w f ^ ((sm9p ^ 12 - 1) / sm9n) ≠ 1 :=
  eval_ne hw px py ax ay (by decide +kernel) (by decide +kernel) gen_miller gen_inv gen_base (gen_F hw) rfl
    gen_ne hf

end
end Verif
