import Verif.Proofs.Sm9EvalPts
/-! # Kernel evaluation of the pairing at alAx, alAy, alQ; written by tools/gen_sm9eval.py -/
namespace Verif
open Spec

/-- The value of the Miller loop. -/
def sigL : List Nat :=
  [0x55a3294716f063f061f6649e2e747aadfe0b66f42d736f69486284215ab1b55c,
   0x6b9eb3ba1515261422e81952ea0ec91f7145bc62dc22d4bcb28d08c730101de1,
   0x5a1e0f70cf86be19d956b9e016300eedfb1cb725aeedc8b8e667fa2c8aa07f77,
   0x9f7e28f4340527dd50b4c9fd0155dd7b04c0b5235351ca84267cfeadb90f7a5a,
   0x6c74b4156cd1df30c5b6f9d19b0fa229432331090397682eba9cffaf40e8b65f,
   0x42d1a2cd09994d0f4f322412e8dd8878e5a3bc865177af80f9deb0f94e0db841,
   0x9dafae4e13aa822c86a68e41f46c2e86ae22bf3e6c0a5518512e75ae3bf8a233,
   0xb168d620702eea4faa92e9edf8aa89336a6bcde8a781f47f3ddc406443a9f9a0,
   0x7f18aab701ac8e3659fa5bea557b7f3367f9829c461ec2db508cc99616196e00,
   0x137a1a78abe0c2c791af2ef4efdd0e5a47b65901b1b54c0dee94690bca923901,
   0x61c94205d9d814cf318d0448ba6391289141fc08c044a115f32fe68b1c331ac3,
   0x88dab47fde50b4d3068f05e8aaceb807954b2e1f6b58689784d3f696a6ed8bd3]

/-- Its inverse. -/
def sigI : List Nat :=
  [0x6ebec05754b2a24c92e7d1c33e1e27d1c0445da2dee4cdf8d912c03eeaee6092,
   0xb233bd5f7784eda40dffcb32daca894e11ffd661e878d91746747b5e05691ce0,
   0x23814672d5160d270577fe2a7cc0355b7925f3b7fe891bb7a9089ec812bbddce,
   0x35689d86ee5900205ba97cbd739d1a6738c298b38b9b9f7da070a45343301ee3,
   0x6d1971a69967d6a9883b783d49fc1866c45c6eb064df3f78aa05f4eec5220546,
   0x2c9949dc5c86c268abe10173fbe51bb33240ad9bee1b26dbfcf8de51a22ccf59,
   0x3bfd5cb907813b6cd60843a3c41c946df9e514cb4c063da37cbb910f342899a1,
   0xa53a7cd820f3eaf39729821a741eb1719afecde67204f6c88f74f579d9e01cde,
   0x85649fb16fd94a0948ce02bb12d4aa2d8fc2122227f3b42449d1f44bfc237ee8,
   0x727be5226df013720361417e408e1382cf5788b211a57d3f328f954d88774de6,
   0x171b9aec5267c713634fbb50fbef988316bf925e275df9c5d7df85cf115008a6,
   0x51a3c58fc403c5be866175f29af6eeaee499db15c8205f151e2237544ea9bba5]

/-- Its power with exponent `p⁶ - 1`. -/
def sigB : List Nat :=
  [0x30d7c7d965b7af41aa02294dc03e0470bb144bb3a8829d42996912198e522162,
   0xaad6e3ab9de1ed92e69a6c3bc054a2653ce8d3fc3de7b39b9f4daf23a5a10c48,
   0x922593a90d309566f97e760ca4b8ce42c2974afc685b8d1c149d81be264d3b9c,
   0x67db7657808b87c763c03f7269f69ff22f423ac420fdba39df39da1cbb29a3a0,
   0xb0512865abfcda8ae4b365699f4d26443bfcf21b763d41785721d251b441791f,
   0x1915e0ffa905d3f972bc5561b1d112f535b201a60e1213efa9d350a068bd62cf,
   0x25711b70a4a0235d18328ac80c51acf27b5533ef9aaa1018a2f9ff2509d0a670,
   0x9d0b6e8eabdd92610a8c746323522a800d2a1ab64f5e87ff95de6dd799a63ecd,
   0x519bdaac6dda236fa92e6823d2f36d12e19a35554a3e40c8da5a587b1252658c,
   0xaf6048e72f3ad18336fb3cf9d4893fd723d8f268eac44934d49764817dd9974c,
   0x2b3f27824246bdb83a860cf587a73b6701b08b27a2ec1955779500a78608ff4,
   0x8d48b563d52201d803f7fefe0bf031325c85360a7b3a28958d4b21a8d5363b40]

theorem sig_miller : nMiller alAx alAy alQ = some sigL := by decide +kernel
theorem sig_inv : twMulR sigL sigI = twOne := by decide +kernel
theorem sig_base : twMulR (twConj sigL) sigI = sigB := by decide +kernel
theorem sig_slip : twSlip sigL = false := by decide +kernel

/-- Stage 1 of the power `(sm9p ^ 2 + 1) * 0x2400000000215d941`. -/
def sigC1 : List Nat :=
  [0x64d5c022423a491fe80264b5d29bed84322a514556aa3f70c7663682c7e25fde,
   0x4791f1d7d3f949809d6203dda63adbf8603a93fbe79da31cc259be81a1613361,
   0x1f27a2af6af9c02a0b483d605cac2007ed61d37902f96efd0258303e1fe64a5,
   0x2160418ec79b33a1b9941d0e0868f7503adf4a33dad300cf5addb6d23eb16949,
   0x39199b47007ead1df52749f6bb76cad5eef74d4152068b0ca6cff204592c8a84,
   0xb17ffa78735f96460b3d3d73f8b535687a717addc1ee0db3d9c522d531501d21,
   0x1e20c442c6c942537279eecdc851b1af1cf3efcecbbc255f200eb2fa5d324b1a,
   0x44fd146e61ca9b28523c5ee05a34dc1fd1a971da8d82cb1e1749f49a921a8694,
   0x946af43a9e9f9c830b28cf9bb8b13c85c8aa01ab56f25a64f5bbecf1570359f3,
   0x4d8d631b8caa5be12a3adcc84e22a3cfc8d28f702b7389142007b2c9ce0682b9,
   0x7eb540f48dafb7b6aea97853526fbb8abea3bea36d052580d14b53b5d3b39ef8,
   0x2340e8409677f37de063fd90da39e7d7446b3a6b26d667885c44c41930a8229]

theorem sigC1_ok : twPow sigB (msbits 0x8fb79000260c606ed7a44e529b2d6828a6dedb7d8882fdc 190) sigB = sigC1 := by decide +kernel

/-- Stage 2 of the power `(sm9p ^ 2 + 1) * 0x2400000000215d941`. -/
def sigC2 : List Nat :=
  [0x777552d4a2a408d289870b1e7f513291ff9609fc2e54a22bec373f04ca7d9fab,
   0x84a970b6e2be8f467c6df231b499285a48aa8375aa246c0cb74241156890d0aa,
   0x3cba24f1407c4e9c3fda7852002a1cc19aa7bfa019a7a1fe64db238186afc9d4,
   0x3d44364694081437821f5363e3447e6fa1ccb0d93e8312bf423105eea93fd1c6,
   0x59c09c3bc2b673f3907c179997153ac128198951cdb115bc8c1ff6020420098b,
   0x3502614cc37221d45d30a132c8133ee7e354acc5c650819c1865b957003602f5,
   0xa03b86f995933569b632da7c85b3acc36091474326b7aa5044afce8d9ec6baac,
   0x5db848c2f3f5a5b2d76b07147c562758dfdf4cc4a58bf7bdb7417baa3b33b73e,
   0x1861cd976b0a8cbdcbc98f03a2d7a5f980fe5db4a5ffa7314703609a13b3c4f9,
   0x925174237c45bfc754dd078ab80c7d08064d28b3007d0332acd7a2f0f77185ca,
   0x9a2857fa26fb1e9267db63604bb4e1126cd2654429082c37141aa85cb2558b84,
   0x205b2e54ee3935c849cff7c1ba47eae07e2ad63719829d0e349cb43178e4014d]

theorem sigC2_ok : twPow sigB (msbits 0x841937b54e916ddcc550936da7e4f2987b33b98b1fbb620 190) sigC1 = sigC2 := by decide +kernel

/-- Stage 3 of the power `(sm9p ^ 2 + 1) * 0x2400000000215d941`. -/
def sigC3 : List Nat :=
  [0xf6c83ddf7932cf9d77424faa3d39cb0b774dc5564c6b38a6d98b4f089a30eb4,
   0x347f8f6ebd41cee8f3057e33c0dcf6ac30516ed377a71ce1200f9197d9f0b4d8,
   0x6a33f34e7f3c5f82e1b7d79c86c3dfa885a1f8c4de9c3a6414041362db539458,
   0x837df4809b2447acb482cbf6c7ea78371658f406954d6123efb6f3347397d33d,
   0x1ed65e6a80ad5afac6bdd68e05ef62eb52a924304f12778a0e3da9b06af46445,
   0x453b550988b967e7ca14077a24bf48ff63d46bd839520424821b7723e54e3746,
   0x4c3c51b06c12b06515ace791e8ff8d12850c98c142a7f56dc33ce35995e80323,
   0x9c7bc50b41b06ccd3a926ae21326385feec0cc08760d26793241d80c06a33161,
   0x581bd34e5993ae364c75395c4bac00941f62a050538c40aac30908992beecaa3,
   0x86548611d6c4f686467a150f39a6a448f9df263f6b6fd10c71232b7f2123262e,
   0x78adbdd7395146c9038d93c22348d7e7940bcbb626d588a6142fad08fa299611,
   0x3bf8b329b3246a0feeb5df24d2b56b634606ba9d74c3ca41fc18a1a91e36f899]

theorem sigC3_ok : twPow sigB (msbits 0x310c8f155ef399b4f85c7853d243ac359310a51ba190ff6e 190) sigC2 = sigC3 := by decide +kernel

/-- Stage 4 of the power `(sm9p ^ 2 + 1) * 0x2400000000215d941`. -/
def sigC4 : List Nat :=
  [0x429d1117d3d2bc0ac165a76dedf2b7ea7058fa46dd48821ea49968e9947ac01b,
   0x3379b07727b1bc88efed31529c745884988c8cb48540759340aae8f8a4b1b270,
   0x230fb168cc62c23f69363bfbfe7ae26b2e31f3f25a23619c451bd65000e8deb3,
   0x9458b7985883fcf874c2e7fb70f6a8b87debdd49a00f9d344b7d1a61d1b9de45,
   0x2039678b86d3621cf85b48b167b61fdf7b45b56d7207e317754093d295c14620,
   0x99f452d5fb79e3aa674135922216ca5877a741e234dfd85384b3b7d233a6eb74,
   0x91540b4fe890d035e7386f4e3e5c5075de7d17bf024091ce9d0361d093b90024,
   0x8fd8fe6eb6f2132e194510797480f603128e0e927e60d2f62a33a18bc375e5f7,
   0x2ecbd3a65200a786a75147e005478d02d5887c1aa3b791b883b30051fe8b45e8,
   0x17109da0a54eef1765dd09d66f6a99a7ba1ff11a95bde41c88480f438e8ff3ae,
   0x513edd019a36ecb9d0e1785c92a99622b55e4b67e7a08d8fecc59f2686730780,
   0x4b2295b0535139cf278b32379a7105bcacbca77db38f093fcff5298cceae105e]

theorem sigC4_ok : twPow sigB (msbits 0xa 6) sigC3 = sigC4 := by decide +kernel

theorem sig_slipC : twSlip sigC4 = false := by decide +kernel

section
variable {K : Type} [Field K] [Algebra (ZMod sm9p) K] {w : K} (hw : w ^ 12 = -2)
include hw

theorem sig_C : twEv w sigC4 = twEv w sigB ^ ((sm9p ^ 2 + 1) * 0x2400000000215d941) := by
  have h := ev_stage hw (ev_stage hw (ev_stage hw (ev_stage hw (pow_one _).symm 0x8fb79000260c606ed7a44e529b2d6828a6dedb7d8882fdc 190 sigC1_ok) 0x841937b54e916ddcc550936da7e4f2987b33b98b1fbb620 190 sigC2_ok) 0x310c8f155ef399b4f85c7853d243ac359310a51ba190ff6e 190 sigC3_ok) 0xa 6 sigC4_ok
  rw [h]
  congr 1

theorem sig_right [DecidableEq K] {p : Sm9.A} {A : Sm9.A2}
    (px : Is (Reduced sm9p) (fpDen (K := K)) p.x (alAx : Nat)) (py : Is (Reduced sm9p) (fpDen (K := K)) p.y (alAy : Nat))
    (ax : Is (All2 (Reduced sm9p)) (fp2Den w) A.x (ev2 w alQ.x))
    (ay : Is (All2 (Reduced sm9p)) (fp2Den w) A.y (ev2 w alQ.y)) : PairRight w p A :=
  eval_right hw px py ax ay (by decide +kernel) (by decide +kernel) sig_miller sig_inv sig_base sig_slip rfl
    (sig_C hw) sig_slipC rfl

end
end Verif
