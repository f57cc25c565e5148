import Verif.Prng.Poly
/-
  Certificates for the period of XorShift128Plus, found by a program outside Lean and checked in the kernel by the theorems
  below. `P` is the characteristic polynomial of one step; `chainN` computes x^(2^128-1) modulo `P` by squaring, `chainP3` etc.
  compute x^((2^128-1)/3) etc.; each entry is (multiply by x?, quotient by `P`, value).
-/
namespace CRU.Prng.Cert
open CRU.Prng.Poly

def P : Nat := 0x12844c5d42caf7db0024f06fae9e61daf

def chainN : List (Bool × Nat × Nat) := [
  (true, 0x0, 0x2),
  (true, 0x0, 0x8),
  (true, 0x0, 0x80),
  (true, 0x0, 0x8000),
  (true, 0x0, 0x80000000),
  (true, 0x0, 0x8000000000000000),
  (true, 0x0, 0x80000000000000000000000000000000),
  (true, 0x965e863fc7c960b588434615c219e747, 0xcc852a9444d8bd4d00f237a6284bd68d),
  (true, 0xb37a78eec71314481102f002e421238c, 0x6022193caf53e0e038644fc0e452dde6),
  (true, 0x2cf2408082c827cdccf14a8658150d60, 0xcb7a6d40d83368327e24ffcf50831d08),
  (true, 0xb3546b905626c0c73dc9305afd33e492, 0xec319b0885fbdf8815dd6dff1c9f2aae),
  (true, 0xba1f0dca25ea1092327cdcbafb4c5679, 0x5371cb478588d84454e30ddcee83aeaf),
  (true, 0x27c5c9acac34946f27045ea0b19fb004, 0x50bb6bc7c1bb919aec6821980ccd6e16),
  (true, 0x27ce466854d265debbdca374dded6087, 0xf1e7bc5c63b9fb2ae662d8ff5601a5e5),
  (true, 0xb8f75633d496509f938d2788b23eeddf, 0xd076394123412f9f8b1b05b4b4db8a7),
  (true, 0xb190732f0331b3948cd82da2112a48, 0xb1e270b0ef29173977dc5b3a7a0bc892),
  (true, 0x9d60f79b58c5cb340af4fb7725b180ee, 0x5025983e0a906aa938e1c12a7546ab32),
  (true, 0x27ced2d5bcc4bffaf67dd83ab18faa1b, 0x542529f2484e87746e72621207f05d71),
  (true, 0x27eb4574ae55b3e6cc43f7b26a1bd040, 0x27cb209c173ec695653ab913a43af1c2),
  (true, 0x94bf004444f09c8a528939a71823852, 0xf7ab6d171cd2c86d0f9b4b099f744266),
  (true, 0xb8db815ee1a1be4deaf114b081313eaa, 0xc8c80f477df2e332e852dface849166e),
  (true, 0xb35fca697072280841b0cdd39bf57117, 0x82b944d4c57071054fc9942883a1dd15),
  (true, 0x96577e21923f782a8186d8f9a23a9fe5, 0x77b586523ed5c7ab2537b4bf30102591),
  (true, 0x2e8505824a8e7a5ae825f82f9619af1e, 0x64462ce789d44e7caeb975585adfad68),
  (true, 0x2cd7fbf6d86fba477f7512ef1c7457c6, 0x405556ad96d217b58397286964f2a422),
  (true, 0x25978666c35c779a7a0815ea33836cb4, 0xe12eb54c037582beaa5eda2282202224),
  (true, 0xbaae9f760b5161bbdaa32451cf176923, 0x3824b4eabd9b88d0dc29eefc63726c31),
  (true, 0xbaac5bdde2130b27d4ba8426e22b8ff, 0xeb125fabba296049b76ca9f77ae28c67),
  (true, 0xba31af97b605292783a8e479a99f113b, 0x20f2fce003a867fd8c4c3c2cd79ad3b3),
  (true, 0x965509f941906efe5b5829e4376346d, 0x46904d96b34258e414dba07aa42b7e41),
  (true, 0x25bbc7c1c4fe4bcccb21bea130e48d79, 0x315a1ae10cd26cc79537436e78163f05),
  (true, 0xb3eec50f9a305a2f11428e775e1fa39, 0x21db64b91d9551a42afe596c0ed4e9e5),
  (true, 0x9670014f7e84775feb4b49168e86874, 0x1cb6322b15abca760136361e1cd4824e),
  (true, 0x2ea2e71a211c876fbaf229142198907, 0x6f0b0d87c5dc951257a36a971ba27e5),
  (true, 0x2c4abcc4a41ed444b70860226999ff, 0x6ad2cc8e4cf55663b3b76371db896147),
  (true, 0x2c6dc31bda8fa97b6c11d2650e114085, 0x4d1b1780be778fd4e393128a4f465cb9),
  (true, 0x252633164340809ee777ac96183db594, 0xcacb4b0350c17a8cec8ea94f5bff724e),
  (true, 0xb356af8a0aae3c0168a26716d4580bd1, 0xd730954e7ed4920469befa919d85d2b7),
  (true, 0xb1befda73b8d9843a79e0539b19ca5e4, 0x902e08053f8a3fc2df28fc7ea9678636),
  (true, 0x9407f5f87cec3420755f2f5a50a56519, 0xa815906d1437b7bbb0f155b6bb59130f),
  (true, 0x9fad32a424b687ab4eab4e7cd78dc39d, 0x3338753c7c5339df3aeb64c615a3ab1),
  (true, 0xb37a5439a111a3e6d19cff76da780, 0x4270b4031d93235f2ecd6952c3ff7082),
  (true, 0x259eeacc3cbd55c4f7cd9d2a2f1c741e, 0xb27c73ab0ebd9138fdd609b6a6439662),
  (true, 0x9d6b5fb473257dcd5842497de987f013, 0x7307f8fe21a5250eb8941e7dfd7d8409),
  (true, 0x2ea00f489ac22fe7ee2c63cfe7cb4cc6, 0x89541dcb094146c13c3aae5ccbc4f520),
  (true, 0x96caa628ae2f6efd220cec04a7e022ab, 0x218ddbb4684f8804159d4dfa3bdb1fe9),
  (true, 0x96727f643ec44d5bc9b49c4a1526e81, 0x8229aefe362092f835b235d37d52d8ad),
  (true, 0x9657ea26d42bbdbb393e932ee9a62569, 0xaa3bf9725d4b201733578daaa44e5555),
  (true, 0x9fa45e932f80987a144ea55c9de00b75, 0xec20e11d6f3e7366ef5c25b0bf12c4e1),
  (true, 0xba1f0f9128bcfd96a881f95dad5ce800, 0x9a545bc429b6b8bb8bc37a00fb307002),
  (true, 0x9498e0a20f887bb29c8c094bcf89585a, 0x95312755c884682fd1930b0ed5112f1e),
  (true, 0x942039c26d92d76ff3e707ec48fe20c1, 0x62cd1af7831fd67bdf6de1a763ba4347),
  (true, 0x2cfb9f7cdb59d5ef06c0782d582140ca, 0x78aa96bcd2758a4f273b51ef515b8a4c),
  (true, 0x2e3df2d60c4fd6f5a2546c048a01aef0, 0x3cf3cc5ee66d5cf0a0173818bace09f0),
  (true, 0xb8fe3a289760f09b53848c800756a11, 0x75f9ccc447b5d2e70b637046a0ce6b5f),
  (true, 0x2e8c454e64d249c20df0a71bfc55a193, 0x393d7f4f83fed61f40da7cf21a93c62b),
  (true, 0xba89e0a086e2d08d5a444a1a45a4e17, 0x24fe6e129db8b2d795bea3c3fb26d837),
  (true, 0x940c78d46c165b2ec5b3711179fe53e, 0xa8be6e35e90ee18e0faaedd2026176a0),
  (true, 0x9fadad0290b1c686c90171162ff9e00d, 0xb4dd13aed9b43dd23462b69597e8ae6b),
  (true, 0x9d4732c484fc9982e50820ae2c992d4a, 0x3331bdd101835175c7bf354839471e6c),
  (true, 0xb37a5d72eb2fe2dc33479e6f12d7fb2, 0x50135c8c3dca8247abba2950ebfa4e6e),
  (true, 0x27ced9c56f1a7dee084e032ad9da9416, 0x2bd7c5b6ac49bc122c62c6b6ea7073ba),
  (true, 0x9f83bc9fdcd752b30c335bab7bcf569, 0xfe5f965a94bc242c5a629cf66274e77f),
  (true, 0xb84f3e725c9b20587260b367b16e77a6, 0x9d2d8be0b87429134409e8b9c55d9828),
  (true, 0x94b665ae7ee26b1827621f4217105bab, 0xceeab3d9c3b2b11966faa8b4a3dd1869),
  (true, 0xb373314c8c25709834bb94eec231d841, 0xee7f0ee5caf18bb4fb03c64026d596ed),
  (true, 0xba164d0fdf76c6ddf3de374dc12c3f91, 0x808127d2ee7c7e41445d7d13e7579d7d),
  (true, 0x965e106311c74d4a7d0bacbcf5aa9a9e, 0x99d5ae5c0695a53739b26815b034d148),
  (true, 0x94934a6c131c28b663b8d32277dfea65, 0x84a7624bebb4a31090c6597c596213b3),
  (true, 0x967b8e8ba1ac54a4d5ac15e9d1912337, 0xbca875ceda5ba0b3aaff4a9cdb56a457),
  (true, 0x9dd142ce6acaa22afe3deb09e720bbfb, 0x3d97c17c2066acf428992fa43b8223f3),
  (true, 0xb8d960f4f750b629d3710ca1d61ad9b, 0xf54e5ccf12dc17ba29a8585ccb1467f3),
  (true, 0xb8d25e3d886be595ba4f7bdd646470e4, 0xd2d2950965b421f8b968cb2c28600516),
  (true, 0xb19989d906b8f93cd257bc94ade670ab, 0xc60ac9c5c2de0ad287ae911cd0b37bc1),
  (true, 0xb3e5d566520579cf3237013f3d1629c4, 0xf36dd842662578e863e3594cfecc5dfe),
  (true, 0xb8fea51a26ec6b551919dfeb1384a690, 0x6345d9958799022a0bf8dd8276de25d8),
  (true, 0x2cf950cea8dd051d4cda5061de7aa84a, 0xbcd3a5c494760abd75be020e8200766),
  (true, 0x9dd16cf88aba4948682d7e0fa58596, 0x772194e390f4a3e23cf1453d55defbba),
  (true, 0x2e8591a023584fed1116c59aa9141cbe, 0xf239ea9d7d7486e67d5276ad124fa682),
  (true, 0xb8fcdb8b7910b3d7de7e957b868a1caf, 0xbe6a6ee8aaa9e9cad97faef73f806b5d),
  (true, 0x9dd894e649aa9a3e3e319a1e608be933, 0xae038587c091c0cb9cce6b4c10f21c43),
  (true, 0x9f81c29842941487eec4211f3ce9690b, 0x8a54213068c5e50e7bba6e9ec8e31c83),
  (true, 0x96c19abadea3ee7ae3f836fd72b941c8, 0x97abb466a91025f078cfa5fd6028be32),
  (true, 0x9429c8b25d2b0496c9b2b93af9daef11, 0xa294ce8bc7bd7f7cef904ab1020d5857),
  (true, 0x9f329f9680bc20b3decd682b7ffc91f3, 0xe453819d8d834802eb5619471405088b),
  (true, 0xba897fb734ef62d6a40ae1278979fc3a, 0xc165d91dddeb7afe0efbc44a1e91adbc),
  (true, 0xb3cb521f18f7e581fea6c8f0965d14fe, 0xcee16517b10741874367a377c71ab56a),
  (true, 0xb37331d15f8d28ce1e9c1594b23726e4, 0x343a8a3665fca314ed1a81e7fd555594),
  (true, 0xb190e79b346a8c872ad1c8102dadf58, 0x528d300a663afc02f2532d270eb95b68),
  (true, 0x27c72890704ffcddef129562b9de91d2, 0x6e437a4d33fb502d7c8ed829ed94aa6e),
  (true, 0x2c48c0bf6d6d2ec506f7c8310fd1746f, 0xf32fad591e736b7488435384ec2327bd),
  (true, 0xb8fe8084cc0706b06e0c41316cbf9657, 0x8e96af36f439b0aafb977f37a89bf9df),
  (true, 0x96e4bedb85ee6339f86a8177a2b7d2cd, 0xd5dec33e1d1e1d68864c489fd3c57681),
  (true, 0xb1b722591c8ffa2db81667b02188a7b9, 0x63ff9176e257d16c435adddcd798e545),
  (true, 0x2cf9cd33a2f6d8223bb1fc1adcb83e55, 0x6e535c7b17ca02d5cfbfb2abe69d7001),
  (true, 0x2c48c2e61e3cc0e05a769d47de7b52af, 0x50ff2877bce7d7d97530e4f8f89cb157),
  (true, 0x27ce63da47601ba2a10697e64948e013, 0xd80733fab72dcaf3a9ae6bd9f5f87e2b),
  (true, 0xb106030056e7360b739872d88741e8b3, 0xb5fc4d2e065adc14678a01df80a54eeb),
  (true, 0x9d4562d90a6e832204c03432bd379b76, 0x40fd4d1b4e054d45032db70d3e4218b8),
  (true, 0x259719cbf142f6aaa90665c3924d9d55, 0x3b74d36dcf2bfd5705e4822f49384ba3),
  (true, 0xba1dee15269294373b81ec20f37f2ec, 0xf1be6c76245345fdb108a26793dd146e),
  (true, 0xb8f77169b96d2d1807f7a9357f02ed97, 0xf82ba78a877f8a2690d325d282cbe95),
  (true, 0xb863e2b51ffda96709c07695bcb9c3, 0x8ab535dbc53a5fc38f6dcbc600175f93),
  (true, 0x96c120144a766b4a10ed19e941b994a5, 0x84ab0a123bc03cf14e5ec4a373254779),
  (true, 0x967b8e3844efd4a2b126d0b65f3e450e, 0x4f2437841b37220f3be03a6428c45918),
  (true, 0x252f5d7a4e17dc18f3ec2b898ed4caa4, 0x8c9dc909bbc4441e7ea762a435b1705c),
  (true, 0x96eddbaea8d8eb4afa835d8575b95340, 0xe22df87fd697f4624f3064e314578860),
  (true, 0xbaa5a3ef69e643ee76fb256061a5b4a7, 0xf1e2a8fca15fe5f8bcaff2416042362d),
  (true, 0xb8f756141831b513d3829c8be4a1b8fc, 0xccc74094c636ab9a3172734a3531a836),
  (true, 0xb37a5d702f19f4c4f25bbb5bf0882c81, 0xf05df0b9912343e3aca0e40c93bee407),
  (true, 0xb8f592b4c66705088fa1c454a77aad92, 0xb5ee6e806cafd4d88f2d792e6a913d04),
  (true, 0x9d4560891cf054b134553edc7e324b75, 0x4d9d1ac976bb085c4e2b4e81c1726e3),
  (true, 0x2526a56437871e04b4e93a742f8278, 0x4e21e43ff91771aa79e027913a049fa2),
  (true, 0x252d042729a8a8f6e295f8a90d510cd5, 0x5a21f1b0f84ac2ce2ecc7788b73841ab),
  (true, 0x2751e99e5b385d09024f5f6650def5d2, 0x7709d8c90b8047af7bcfd88c44b49664),
  (true, 0x2e859853b099ed04482e5b7965fadecb, 0x5eccfce354cd1ddd7ba11f7cc70b75e9),
  (true, 0x2774c4228bf67a4775e787a417420e27, 0x1464dd7eb827d2398b75a615026dd72f),
  (true, 0x27cc16e1f82b641a41f51eaa4adfe1c, 0xfb64a96ee39a1e526cb64432a39b839e),
  (true, 0xb868fb08307ee6552787c6063ab51f72, 0x54c749c2292596a195cdb2f38e077826),
  (true, 0x27ebffd1289c588dad43bf81f8113e7f, 0x6960abaa8fb0cbc5892105f0ab73bcd),
  (true, 0x2c6662e2fcfc86017f496830c0b32a, 0x4ab6f4d11756d7c3602eeb80806ba264),
  (true, 0x250807aff31456843d3e687037b77ff8, 0x7fcdaa3f235fa4ecdec39698fd77f308),
  (true, 0x2e13753911ed736be87a96a4c44a5560, 0x356f154a9407a78cca193c093672fda0),
  (true, 0xb1b70ea2a4a0984d16e2dcb920b42f2, 0x7f95dc07930ad98e882b318fff9cfe0e),
  (true, 0x2e135261ba7b885613b6fd7e140be595, 0x15646a5728131f8f7b2c1c6f3a52d5cb),
  (true, 0x27e98149a311fe26d091e4ad0cab023, 0xdf9d6b24fa24b175145a58fed215a39b),
  (true, 0xb1283cab4204f736c2deb8e5dcb90a3d, 0xba9b94a6cb4fe90f2c3487bfeb774df1),
  (true, 0x9dfdbbb09280ee49cfb4da2687511235, 0x1)]

set_option maxRecDepth 100000 in
theorem chainN_ok : chainOk P 1 chainN 1 = true := by decide +kernel
theorem chainN_expo : expo 0 chainN = 340282366920938463463374607431768211455 := by decide +kernel

def chainP3 : List (Bool × Nat × Nat) := [
  (true, 0x0, 0x2),
  (false, 0x0, 0x4),
  (true, 0x0, 0x20),
  (false, 0x0, 0x400),
  (true, 0x0, 0x200000),
  (false, 0x0, 0x40000000000),
  (true, 0x0, 0x2000000000000000000000),
  (false, 0x4b2f431fe3e, 0x402eefc393cf86048008a206480a058a),
  (true, 0x2597a8500f4afe3f3de9d2576c7e4d45, 0x706f78ef11fb23f35af5dc22be7c2b5b),
  (false, 0x17558fdf307afd3cc7b9bdd87f48b50d, 0xccc528ea2e5d0f80b34a484fb460142e),
  (true, 0xb37a5d796695ae4399852b2416cc41fa, 0xd2e92ca7903850e6cd82dc65e20562de),
  (false, 0x58ccc13c35909951296f076618d79873, 0xe012c9cf48ff1fafb5210eda14167b75),
  (true, 0xbaaccd8366eaa14d0dc42a1f56264754, 0xeefb12d4b4af5250812fcd9d75cd60ae),
  (false, 0x5d0b6dba66011b7265851782c9445dfa, 0x762e7d88a1e36ad8daf81b25829c1a22),
  (true, 0x2e87c862742a7fbd06f20d19df7bb6e6, 0x8ec26634194e87e45cbb94cb723a3e4a),
  (false, 0x4b724c983d42e1305cb5f2071f1d8f1c, 0x61cf150de68fb07bb91723f2666ce470),
  (true, 0x2cf0a3e7c50a987f9a9df494c0e484cf, 0x2534aa0757ac654b53225cab59961775),
  (false, 0x4a116d0f886517c2ede7f763371a511, 0xc48d373737814466678806793de4a14e),
  (true, 0xb3ec26fea4ba979a46526fd9062d136f, 0x4851cbc0b8d8074ddbaea5f785b342bd),
  (false, 0x1280ec62ffc638993ed4fdc8473a537c, 0xe7b40055eab52794ab8b1df0db281b45),
  (true, 0xba82f9a7bd5053ca9820cd86a8026714, 0xc76a2f315d3b23ba4dc2e03ceea3e16e),
  (false, 0x59f3d0775ccb7717772c19a5eb0df845, 0x2e4e4f1a3fc71942021a7236d7ad3c87),
  (true, 0x9df618107d9a561a48065cb0ef19f77, 0x24004a06eaf4f492c7799e14f57891b7),
  (false, 0x4a03fe12b42ff4f482ab485c3cc9fb4, 0x62034c9ecbb847de8cb17bbbcc01ce39),
  (true, 0x2cfb2c0f77c435a6f007b8070d252242, 0x674e28bdd95ee074cca9fd4b09ee41c),
  (false, 0x166e63f97ee7ab61bbaef7c3779faa, 0xd5d4510c83169baae4efacf00f0cf016),
  (true, 0xb1b722c6b3ef34ec35e4d0205f37630b, 0x54cd183f7b7a9b7ccbf28afb8bbf18a1),
  (false, 0x13f5ffa71a1f1f0f867b33a1f2851613, 0x29226e1ac999ce99bb85549220faa00),
  (true, 0x9f1e6f37a87382ba9289b85811806, 0xfbe7170c2af623c4835b5bc8f4c4c5e2),
  (false, 0x5c3436ae8b85e777d65c1893321c7c05, 0xe6ebecfd2b8b4020f024832e9cc42b17),
  (true, 0xba8087ab3192106ec6b2ad4bb329bce1, 0x6e936bccbb4191de6200b63277324225),
  (false, 0x16243897994f296fdac02a4b6d68a004, 0x6c441035923927561141514502a612ad),
  (true, 0x2c41a57989cffa1e3fbada893272d88c, 0xbc074094a573f92af947b9d1b0ab0ce6),
  (false, 0x4ee8eea6fd1c14ad8547f49d1154fb29, 0x15204e4069c6f5890e19efca33d1c823),
  (true, 0x27ebda6a55f1c54404f77c4105cfe1b, 0x51c6a396b20c7854d073c0fde7cd373),
  (false, 0x13e618842e6dbf2ca981009877285d, 0x4e8e3510e5ec696d2a7452861868ba5e),
  (true, 0x252d9ba403d355798247072b6396716e, 0xb7ec67af6fee0289abcc9f36a6232312),
  (false, 0x4ea602b40d3822fd3cbf24dda8671147, 0xe74cb169610c35a77712678ef19a6589),
  (true, 0xba8241c4cb7d1fe4cb9b1a69dbc9be7d, 0x2908ed25b1d4943e3fd1ce684fc60839),
  (false, 0x4f8f7849fef94a2bff67f6aa188ab50, 0x8de8de07ad352dedb1cc0afdc5f75d71),
  (true, 0x96efac584f7f4061dbdb688c5268e6e8, 0x6ee093c39c2572c4035a381698c48cda),
  (false, 0x16242fc7c2cd985c65fb6bb73942e53f, 0x82de2e1ac3b3978f345dda21938c3061),
  (true, 0x965752fd5c8d40a704ad992b44eb7ce3, 0xf840c7ae9cfb680e35e1e72bb5d61353),
  (false, 0x5c31e76d0c7bd0408edea1edf882bba8, 0x7d4d44171f9fa48bd94ce0f9f355871d),
  (true, 0x2e1a868f4e38a2db277058c009e8bdef, 0x55f53d101742534213d831835044d37),
  (false, 0x13f4d6cf74bf197dd7165d1ebe6466, 0xe6880f6233234ff31ac131e28fe30ad7),
  (true, 0xba80ab52fe4b011dd13e9ba125ab0c3d, 0xd6fa3716b3c5c806e1798f1151168f51),
  (false, 0x58de0bc5d04f60c563033f01865c43f7, 0x53ef1703059490907e61baf51075a31c),
  (true, 0x27c55d114dffce4efcff4f84722b33b6, 0x4395459078fe572d7022f9f9d5d216d2),
  (false, 0x12ce049ecedeb78afb996ee8843ead81, 0xd8c59ffee556ef16ef9894fb6b92902b),
  (true, 0xb106b0c08b37c4920c7341ed1b231cae, 0xa7e11bfb554287897f9a0ead55f9fe70),
  (false, 0x4f8abfe0ad950ac4c7381cc17057156b, 0xb71466ff9f89813cf1867d114bc6e3a9),
  (true, 0x9d4cbd0bf13f31d14092101a03ca4e42, 0x388db8cd9e3ec084cff5a0a07aec821c),
  (false, 0x5d52d095b997629d3dc1bc071f702a6, 0x6ffa44c1873cf300758fa674cbbb70d2),
  (true, 0x2c4a04336dac7a2b83ae6b5e14d3fe69, 0x2a4dda894d398c1d31f541978aa046ff),
  (false, 0x4fd7b15904d456555cf7cac72d1d489, 0x44d9aeec39794887675a7a7fc0c37e02),
  (true, 0x25b2872abbd63ce5610ebaa1eeb9415c, 0x1ad58e368d883ae87d350dae36d745fc),
  (false, 0x1637860d359f7df3d2408b9893758fa, 0xe8e9b89ecf8477305cf0cd21ac71826),
  (true, 0xba3a2b6da05b54f3677dd0004924b0, 0x42258943a95d08a4b4fd9d793f8ecb8),
  (false, 0x12cf6692913e75cb783ee82fe39a88, 0xfc8aed0e7c75f87687b944a281e429b8),
  (true, 0xb846ea2d822274efc90646f640cd7c76, 0x87c8ecaaa7129a19e099755ad047d7b2),
  (false, 0x4b384f29f80930f93680cc9e63f727ec, 0x830b5ad58ff3c94c63236b902c0f7a60),
  (true, 0x9655ba30f98f168cfc5d822d91135953, 0xc9f9e644d8a8d25da7bf2320e40458c1),
  (false, 0x59aecc168cda724a909db2571d484632, 0x4f77c00de020cbba5e082f8daeb0264f),
  (true, 0x252f7abf11c921c415f139959b154f78, 0x3c006a470e38834e3a4e3e8fd1083c02),
  (false, 0x5c7adae4f9c6fc526fe59adafbdb34b, 0xd249c2772aa4c41ee6fb167fe4a8c14d),
  (true, 0xb1991d43bf6bdb9b7db8458c4617db30, 0x89a9912eeb252e0309a9cfa358b076b2),
  (false, 0x4b650f360eaa037fa0a9097339a377e4, 0xec55417220862b7a6baa9b671003a718),
  (true, 0xba1f211d4aa8da1f0c9b4397654b2b3c, 0x7c48058327822d7516b7439988179f54),
  (false, 0x170c6fe95ec4a313e0fd74219bf0dfca, 0x2efb252536a104e72926329d17abfe76),
  (true, 0x9dffcc4f12b8fc3ac2e543db17234a8, 0xbfda2a576c53cf5940cf224610c20930),
  (false, 0x4eed287f3051f522a1e63ac64f57d7d0, 0xe234d9d4affaa2fead73c0cd5ae29eb0),
  (true, 0xbaa5a1221d65b57643c82a0ba333325b, 0x13a351892d0b244db8e531f0a6e1beb9),
  (false, 0x1296cdd788f09502a5385d8235c23f6, 0x4fc7e9a98b16b6da74bb9d31cb4ccaf3),
  (true, 0x252fe7dd0c7c95efc81beb9188272907, 0x31c2f75757f82d50e9bee64a35d2cd47),
  (false, 0x59f3c60f08fe039ef49e8ae9a01485d, 0x534d2d886d839696cf3a7274ad09f4e),
  (true, 0x27c5c2234de8a9d1e1c004749d3678, 0x5abf528ee3cf7da6c1cc91a707863b00),
  (false, 0x13a8be91ca7077aebe082cb387fda4ba, 0x4e6ea361a7e2f7292d9c5a5a053ab2b6),
  (true, 0x252d2108582bbff9b71f50b6e6c2ac70, 0xf70f0e89e48bc9d9e3089395f1ca2af8),
  (false, 0x5c6d8f201a52f5e53808b1c5c27083bb, 0x55ef3c02f7e533186777ac231ed35759),
  (true, 0x27e9af58a80acaf583fb01cc4eba1d76, 0xe5275aef036101e5639c74dd96b1f0b0),
  (false, 0x5d4584219ca408c6b91c5b8632bf01e4, 0xb61e6cea9ce3eef26b5d7688e96a951c),
  (true, 0x9d4ee4eed2314bdf9f4142df8f0bb170, 0xe077fa44e95319964f34e78c6d2b3970),
  (false, 0x5d5670ab757501f396f6a25365a72294, 0x86ccfdc11c6ddb7f42d6490c115d0cc),
  (true, 0x9672c70c7d17fe2b4c68befd9cd07c, 0x2d5dba9c69618261b50be0dbd45f8fb4),
  (false, 0x4ea2fa0c14157d64d7eb21e08468d22, 0xcbbaca40669d4854211ef85bb12920ae),
  (true, 0xb354d859ee83339357ce9a56c21e29c1, 0x46e57456b2432cf0ff6cf77c1a401e47),
  (false, 0x12ddf4a6993c840ee708fb9783d63db1, 0x9aa3dd9afaab2e6352082eae0fa5ce2a),
  (true, 0x949858798702e91a6b7199df8cb97ef3, 0xa50d15fcf37101f5af5f5d43ff4ab729),
  (false, 0x4f8e501b1f4c5fc7fbb6d9face772e3a, 0x5ab8206e675fdb2dab72c76f52c3c777),
  (true, 0x27517d0d1171f71f253e2567d865cbfd, 0x6fe881264b4ebe9e9ba141d2670bb611),
  (false, 0x16250331e0d95a90d60acea1092ba7f4, 0x3ecae1480789d19cbfb9f271cfc89ed),
  (true, 0xb868de276d92d8fbde6f823cfca35, 0xe99239dd21b5d6d0846526e40941caa1),
  (false, 0x5d1c2e10bf8c03ad2e70de7e91a72e54, 0x6c16027691ee878804ac1bdc5a02f98d),
  (true, 0x2c4182be35e0ad633f763b299e9f7dff, 0x1f5aa92a5c7818d65457b3ab61ec55c7),
  (false, 0x170d47e25be27c2f3f0a6b3582e3531, 0x37a9f8b4e5a2c9bca536cd2fdb2b21aa),
  (true, 0xb12a6e7265248e53943fc18f2d7a5d5, 0x328a8a0f39b57aa785a34c40d960f62b),
  (false, 0x59ab0a92587f4821aa8ceb52afd2f8a, 0x757613d2db1a42019851223de8d5d0e3),
  (true, 0x2e8cd3a8a670ef562b3ac23c4dbade26, 0x2754e5753342f08d0292c27a3e77a08),
  (false, 0x4a5b25dff19d4bc6c675aee39af11, 0x8ca1b3cbf2d240e1d31c079788db921f),
  (true, 0x96edd021ddb0e345bbc3e4595782b4c8, 0x2ac5e603ab082a1f196913a1e2a17f92),
  (false, 0x4fd3071f9d65facdb67f0ba28d042b4, 0xe4cddedbfd8c737f3fe504c156811128),
  (true, 0xba89eb0a437182531e2627606ae40838, 0x9d5811071bf44f3f41750a93a661f2e8),
  (false, 0x4a5b25910baab9a65f432b53fdd6e3e8, 0x672b53f0f640ab47d50d58e1dc03e198),
  (true, 0x2cdceb2754ceb885da5c7ddf5310b843, 0x36a19117f31b4c44b925d7d26c0a27b1),
  (false, 0x5887f85a626dc93847c12f7d3e96f67, 0x913008dc04cf27d88c265a11a2f7de6c),
  (true, 0x9405ae61b2c4b6d4c4507007732a994a, 0xb69e8507bd5adbed1f14f629bce83246),
  (false, 0x4ea73958771b7f1222317e159d1c9762, 0xf8a49e11da74c19a0717aa0314e5c86a),
  (true, 0xb863745367dfa486ace9bd3bbb279257, 0xda7daec99356249daf8f0ef7854fe7f5),
  (false, 0x5887a46e549bc1bd0892761be2c632f9, 0x126d83d40aaca2d060600fa2bb1e3896),
  (true, 0x25033b3d307f74b411e48b12bd7942c, 0x7dfc3dba82cbed8fb44c8d18766d600c),
  (false, 0x170d0df7969cea862a3b9cfe53f5b552, 0x6e8b09c2f9d54e5285da33a78bba093e),
  (true, 0x2c4873e03afbbeb9be410600aa4d5dcc, 0xaeb2d374e73dcdda27a1ce1613f762c),
  (false, 0x4fc0affc14242cf92017e266dbb281, 0x902293eabafd7f33d168f2c60046007f),
  (true, 0x9407f54b2151a0319e6a3f477ad969b9, 0xd6a196352478ace69c1f6300053395ed),
  (false, 0x58de186c43125af5b974290bfa8cc942, 0x7c71363f21a0cabef973654c8e5293cf),
  (true, 0x2e18d47a2339514401190e3b58f87d9e, 0xf472f6107636a86cf758111fc9abb640),
  (false, 0x5c6806642a3656ffa9b634dc6b21c0a3, 0xcad24b3198613194188cf9ad38001491),
  (true, 0xb356ad47774aef13dfa900fb36bedfa8, 0x975d3c31183b58651a0e420b020c881a),
  (false, 0x4a14b835c630914d6cd3f67d3530f216, 0x8e1bf4c85ce04e7ab683ff06218d9856),
  (true, 0x96e42834b4df0df57042a33834d92cc1, 0xaabe38c4049fd83815fcbf0db0a6a7c7),
  (false, 0x4fd264756a57959cbb0af037c270e6d2, 0xcbe8c3a9817655db3fd399bc87a54ffb),
  (true, 0xb354ff9e5068e3460362c0d444a54589, 0x9f3095c3a2259831c569a1eef9015edd),
  (false, 0x4a5f81577adc4ff0eba3ea4102a6362e, 0xca6bd6d0b677d5c7bb16948e9153b62b),
  (true, 0xb35630b1f044da55d5b9c408c31faf9b, 0x45674a65ef36ec895fcde8140b479b73),
  (false, 0x12d821c45095fd0c01419c064cb496c6, 0x36c359d7c92ef9a152f121fa4ef476a7),
  (true, 0xb10d3f0d3161daa9fa771ee3ffc5fb7, 0x77497e24078ea653674b661defae65f7)]

theorem chainP3_ok : chainOk P 1 chainP3 0x77497e24078ea653674b661defae65f7 = true ∧ bezoutOk P (0x77497e24078ea653674b661defae65f7 ^^^ 1) 0x77497e24078ea653674b661defae65f7 0x1742dee247009d7f4c437505372d9315 = true ∧ expo 0 chainP3 = 340282366920938463463374607431768211455 / 3 := by decide +kernel

def chainP5 : List (Bool × Nat × Nat) := [
  (true, 0x0, 0x2),
  (true, 0x0, 0x8),
  (false, 0x0, 0x40),
  (false, 0x0, 0x1000),
  (true, 0x0, 0x2000000),
  (true, 0x0, 0x8000000000000),
  (false, 0x0, 0x40000000000000000000000000),
  (false, 0x12cbd0c7f8f92c16b108, 0x6687469ef82c5f8a1f19c0f3b687d278),
  (true, 0x2cde2dd5e934b4a8188482ca71684048, 0x64656279ccb1a33dd288ce355f8c6c38),
  (true, 0x2cd7f29829b3a4c5ddad74fb25c1ecd1, 0xa92173f2fdedf21300692f0c65d3159f),
  (false, 0x4fd7b063c19a39f147a145aab74f08ae, 0x80b3211862b1d739bf24d701cea0fbaf),
  (false, 0x4b2f0dab733c36656a1518f7de075937, 0x8469988ea5b47ffadecfc73f20599c08),
  (true, 0x967b3df892b98c1e0fbffe9a0d7a7d05, 0xacb25b3b56097132a578a8401eaad093),
  (true, 0x9f883a10dd7cd8f27a2395ccaf0a7362, 0x5eb79233a99eea1fea7b35dcb88c4674),
  (false, 0x13ba750a7b2f4c50879c0af437d93057, 0x404f2280d5542d324f8f53ef0348e46d),
  (false, 0x12cbc25056523c9fe55f1d9ebf866d44, 0x63aa1fc2eb692c52a9080be0bf35422d),
  (true, 0x2cf9eada215ef6763c1187a5aaa41632, 0x7a5ca0974885d5992da79a5c362d4eec),
  (true, 0x2e342fe723211afc5d5250bfb34641ed, 0xa170dbb5dc82d6bff407c08fb1f8486b),
  (false, 0x4f9c8cc6d0d9dcf9aff4acbcbdefb7b9, 0x5048a7dd79806f863799cb84b6478102),
  (false, 0x13e77f4b3778e3ea04f8d7f5c3dea56c, 0x95c3c7dff82477db669cac1a29ce36e0),
  (true, 0x9420813e071dd8d9784a50636a69d208, 0xa5432e5c03b0532b2f7191f349b2ab78),
  (true, 0x9f1c851b3879f2e379e066b8b280785d, 0x39cf6d2bc91db6db28d8eb2b624bb5db),
  (false, 0x5d4137b6d0ea445a2c2e8110efd575c, 0x10fd91a4fe460ba7400d4f8dd18506b1),
  (false, 0x12ce12e274641280c5b509df3707695, 0x4883e12284f7347e226b79bef79c1162),
  (true, 0x2501695cce36b2421dd6147d012d7288, 0x89caafb02a3a70f64c356120cb889cf0),
  (true, 0x96ca329563acda7bdf4dc2ecaa084572, 0xc8e949a7ab3d55a5a72cdaebd831468e),
  (false, 0x59afe187726812f0d5870bda87216f14, 0xb94856affe107563711f5e78ac1f918),
  (false, 0x4efb1b5c9dbcbe88b0d9e901ec2f00, 0xf88e37ee33ba2e3191601867292dd440),
  (true, 0xb8637da92b7dd52c69dffea5a023e7a2, 0xd58c013c6f6c126132abd8adb569943e),
  (true, 0xb1b7059e1130d56da7a2879523750ae9, 0x21fd675c9b07392e2b7bf00b10a9d5df),
  (false, 0x4b384aef6e4e88e85040a56ce31ae6c, 0xf0d4888d990e8a61428695e4fd80eeb1),
  (false, 0x5c7a823f34ccc1c978a5c126b7b620d6, 0xbdf8c604fa67c5f9168e8b50df2f8e53),
  (true, 0x9dd33c7a34cb2862ab564756aa199da5, 0x17227bae487027bf5909d32f4cb73079),
  (true, 0x277d847a850e588c99793868e0f05c0, 0xc577c379380e103d7548fb3d59d785c2),
  (false, 0x59f763f74518734da69956685f515354, 0x5c99257b594a473678620b6365675688),
  (false, 0x13bec311a62128fbd130e93b5f5865eb, 0x975c98dc5386120155c1dd16b1b9b169),
  (true, 0x942970694a0579850842560c28601e9f, 0xff1ca4a87a8f9d127f4271676b5f2c7),
  (true, 0xb84d4294d24cfae3c1828864856d2d, 0xd3f596b2d748da24b232dbddbd4ed8a1),
  (false, 0x58cdecf42e8e27fd63aca5e353c585bb, 0xfc4dffb3d2c63f7c39c4d0871319a418),
  (false, 0x5c232ce506789a02f38731621dd192e0, 0x92ebc43ed8ce2de5278aba40b17326e0),
  (true, 0x940e23fe45010cb56702ebdcf69d4a5b, 0xe01e45eab2680f96ef8298e8d87234b9),
  (true, 0xbaaccd3039205721dfd198865240b627, 0x704ad386b254d718ac7dbdfb56641d2f),
  (false, 0x17558b7e6cf5d892ad2a1b8b3600e785, 0x4537394cb44c4fd20afd9075b67855c6),
  (false, 0x12d832232a0e79311f39246cde81122b, 0x12d8020936628ccc087622421506807d),
  (true, 0x250aef69fc4ca8b661317b16700aa6b, 0xa2f134a76aef3fe1f2bb8f5ecea790b),
  (true, 0x9f32b343bfe13d402a3b5660d44503, 0xcae84bbccc9c977c4cc9accd9a4f57b),
  (false, 0x59ab53726f2f9352742fd5fe5bc003, 0x16a348dc49608bd70b7e84b9563e73b4),
  (false, 0x13a8bb0b26ed2e80d57d1354e1b63b0, 0xc808821be893024fe303331f61282c80),
  (true, 0xb35f79a0c12d2f2c90b8c3ffdd6dde54, 0x8994976224b307426f6d56df47536d8c),
  (true, 0x96ca15e11f5e7a38e1120f5b871b7cd8, 0xc021749a8cf675350a35d4cb229c1f68),
  (false, 0x59e4976bd4d6766b27dce389440a5b49, 0xef647c475ca66d4c1160f7e388583657),
  (false, 0x5d0a0b58f893d586f8558d49209307bf, 0xb9bc5d9e09793f47d39cfb8effeb59b0),
  (true, 0x9df68e69198eae922fe418465c7e74e0, 0xb2c4fb91a0a99b294b6a162c79f0efa0),
  (true, 0x9d6bc240af2f55ba8c84cc71eb40e10c, 0x22f480a915d27f43df7d5b59aed61cc4),
  (false, 0x4b61aad95da24d243414051aadfd1ad, 0x184fa5cb3434f1c88092d8475c2dab1b),
  (false, 0x16780d885ff62fb4084ad6adcb3700a, 0xf9f80b628826bde677ac5fd517dc0763),
  (true, 0xb8610a54f9b01924efd1088da8cd8a05, 0xa66a796c2b5b2fa45724b67d9e7ee519),
  (true, 0x9f17b0788b05318cd1b74fa87e915a1d, 0x464ed78fba9c50948e8ee68e77b54819),
  (false, 0x12ddbb75d080ca53440447a8dc39a443, 0x5dac2c98fbf621abde4745ded3e9070),
  (false, 0x13bfea210444b3f21a8411877ee46e, 0x91531f7dafcd94f753b39af2841577ba),
  (true, 0x94058298c5cd8e4bcaa8587f2f51389d, 0x10e70b8801472a0c7d3ca03ead166993),
  (true, 0x259c09a9b62efeb7526353dcf7b6777, 0xc9f034ad2d226af93ecc501822c2bb97),
  (false, 0x59aecc5cd7e8a0ea96ad99694aea1943, 0x2fa8acfca4cefa20c47abe7588442b24),
  (false, 0x4eec13dcc0deae78f27d2f37dff8c60, 0x863ee73ed3278fcde015b36632289e30),
  (true, 0x96727ff0aff251b4ebc448474d6207bc, 0x71a7db6435256dda16ead14ec7826454),
  (true, 0x2ea9f59b9e0c28ad5180dd8e06f8dc25, 0x3c873f7b33bd406e68ad81f4c64888d3),
  (false, 0x5c7e6964aeef9393ac81416379f3b77, 0xd3d6ddf1991328714ed351fa53369c98),
  (false, 0x58cde843567397411ff3e468380e282c, 0xfd621754a9119b2a36c7fab8aef9f764),
  (true, 0xb844096db3e237be140eb33106cccc0c, 0x8357b8aab5cd64df45c5510fa62137e4),
  (true, 0x96559d4d519a2c7fde93e7c4eadf88a0, 0x52cb8910524bcff7f3b15edea6583240),
  (false, 0x13e38695df3ff82e48062e33582ce695, 0x7f092466334eb2c4b6a8a29f5e753463),
  (false, 0x1709e36a9b8c6385f445938c168c19cb, 0x6e0b434fe5faad5e251d8a4a13ed44cc),
  (true, 0x2c48e5be99cc757e67b5b67a9c68c15c, 0xa998b2ec3f3fe14112a00cfdc7976554),
  (true, 0x9faffd312347ec59c1e8424416c5a96d, 0xf03bb8b30c1993a3c731bf7eb2e9cd6b),
  (false, 0x5c7adf352c618d8ed752392a9e4787a3, 0xb15bc840720a10cf5d1d2657c8bc9dd4),
  (false, 0x4eb03536eb44ed48eacec06fa214f494, 0x158c8674737b37b3189e815baa4fc6dc),
  (true, 0x27e222eb17be5f883299e26bb48326c, 0xd5d6144a454d1326614f9c6fc28a944),
  (true, 0xb1b722cff3b71dffcfad817d353914, 0xe6fc316ae87e56c7face4b07ae74b6c),
  (false, 0x5d4042ee28cc212ffbf044aae68b67, 0x58b4aabb881963b4d3023746deed933d),
  (false, 0x13ac0c2b16b59bacd3e5d686f18d2ee3, 0x697c30e32601b8b418682026c49b5000),
  (true, 0x2c666008db597218243deb150d23c8a7, 0x53d4278c9f09ab5fdcaff90e313f0a2d),
  (true, 0x27c556b0b6ac8d7401d411ad1880d7c8, 0xa223ede0039bf7f401696308c087a49a),
  (false, 0x4f99016d1b52f43ac1b8e7c59ad7d3d9, 0x15309ce43231a96f711192a454939623),
  (false, 0x13f5fffb76f220a88ddbabaae927a76, 0x54b1872cc4d807e4af69fdc2fb99bb37),
  (true, 0x27ebd1565a527778f4d9f47fc7c95758, 0x5da0b9d7267d6b50cb93d66d372a2b62),
  (true, 0x277fd4f1558ec00144f3725fffe1dc9f, 0xf96455a4db5cd59da325155a8695ec4d),
  (false, 0x5c30cf7075e22abcdf62f381b849608d, 0xfc9c7fb70e8d97f8fb17d9cd91d961ba),
  (false, 0x5c23742c4f3eb1e2023d4150ef8cc361, 0xf5760ccc428bde02ca60facec27d37cb),
  (true, 0xb8d25597635802add517ba2b04cd0114, 0x14e59f4fc619c5a5f0677fd653e5a3c6),
  (true, 0x27c5732e559a62eac91f0e51bc944ac, 0x8a4a69fde06ca07549b8121485e5258c),
  (false, 0x4b60cc2c96bac76f37621de3eb80b8dc, 0x71d0fa501f634f0b0de893ce9a845524),
  (false, 0x1754ed8f07d64a6761b6336e9d4177a0, 0xf2c79ad7efe394f23b0e612f24e7fb70),
  (true, 0xb8fc63c44ebf43b9eebf29b4f0c088c2, 0xd07ec8c45c3a52f961849ddb21b5551e),
  (true, 0xb19073b9e540f69b0ee8b4ae7fda7f7c, 0xe4764381bb06ec61fb4a1309e38078bc),
  (false, 0x5d44bb7ad0cba48b194a75bda5f0ec6b, 0xcf4b080fad201496a66ad4b867dc34f9),
  (false, 0x59b8fb879f01c58dae18e50cfc5e18e8, 0xb78f1bf068c140ff93c874cb28f73999),
  (true, 0x9d4c29914116eed2b8404d0b8dd2255f, 0xdd9d725cd05b24bf1db6f78334d67d87),
  (true, 0xb12159432335d8797529ff5e8c78863e, 0xd65a4214e2e284a2dbdf1f6644562da0),
  (false, 0x58de44587027038c8b81a023989eab0e, 0x1481489dc94efceff3c13b9d4d760d9a),
  (false, 0x13e3df2c55531a9cae089b7d3ebf395, 0x556af719937bf8f2afd59600a19c8627),
  (true, 0x27e9392153badd524817455b01b4f175, 0x9540d32373a194c21511efa9b99198e9),
  (true, 0x9420176bbfcc31ece18d7148b361e3e2, 0x99efb285a84a73df449adc6c25a6cb7c),
  (false, 0x4a49a0e7dc71baeaf79db0257ecf3355, 0xe0e7d09ae9a1838a55eb23d53ae12e73),
  (false, 0x5d563aa88f9bac8b1cfd4d95bc0c0ff6, 0xf0dbffc0381ef29658d123181552beb7),
  (true, 0xb8f504c6b2a9f54601488522dac44e01, 0x60c77add0a28b4c9375473afdc79cd85),
  (true, 0x2cf2fa0baf39b554f027a6791224e674, 0xc395c723243636d59bcdf25faf07b04e),
  (false, 0x59e147816611b88f6a77ccd089768b49, 0xc306c2afcb84d941cbb2b6e2907f8243),
  (false, 0x59e10d870658b57ec834b9e16115127b, 0x60f22f3e0dc7342fae415d5a7d39715c),
  (true, 0x2cf2f110d4708ed2c45fb7d994ee0a44, 0x2d407016352c68ee0626bc7d6df119dc),
  (true, 0x9d45da9db9172656b4e892bdbf5de2e, 0x377730ef1e3109a933fc402808a09dda),
  (false, 0x5890be6b235063735f055ed1addd54a, 0x49b29084fc378a59b1fc95a304fc4fa2),
  (false, 0x12819d8c19b0a1b135f56240b011f9d1, 0x657ba9977d53ae4d538b21bb4727b81b),
  (true, 0x2cd5a90154cf6887b1d46c38ae9ac98e, 0xfc88cef177c55888b5689823cf0e290),
  (true, 0xb846ea24eea47baf720cb90d09d241, 0x9f3af7d826777f1c75cce39087e31a6f),
  (false, 0x4a5f8118f116f68d415a2ab0183300fe, 0x234b0da0901ed0182269b1ded3ea679f),
  (false, 0x4b778fda22aa7f438b3171150e19f8d, 0x73c95d5c9cace238d55a290b2fea55be),
  (true, 0x2ea0bc3b8ea1f5a3abc6dd298adbc00a, 0xe2e3a6db1d89002be0f51e43c5b1c8e),
  (true, 0xbaa5109cc5ed4e599e4395831e0bb8, 0xa8ffd703186d15710a6fd6380d9d5c40),
  (false, 0x4fd6c44bfad91b91daaf5dc799c3a2fd, 0x6a47754dc6a4c87f4f47ae504dd7b3b),
  (false, 0x1636ab9dbac2d36cd51578b7c9f8d3, 0x98ec3422fa97887f4f1f2446b12e6d04),
  (true, 0x949118be0afcfa90c732e6ab9150992c, 0x3a2b6491e8b4159f90c8891d2b048904),
  (true, 0xba3a0edf9f8f48f91b58acc9456d42d, 0xf556dda5af654fbbbcb59b45fdcd3fab),
  (false, 0x5c692e791d54eb32b36517df01fe2069, 0x5f67802dc9d1e25c1656ce70f9b88ab2),
  (false, 0x13bb017f58aca9d9fb1908ca858d670d, 0x1c55dc4f610faba6678bfcc4756fae6f),
  (true, 0x2ea94d6eb4636f9dfc149c1f1a771a8, 0x6bfa48686bb1657eab2627380661d8b2),
  (true, 0x2c6f9392e2eedefbcd45cc21d18a16ca, 0xf1d4db2843662d58f28f2cc29fc4f26e)]

theorem chainP5_ok : chainOk P 1 chainP5 0xf1d4db2843662d58f28f2cc29fc4f26e = true ∧ bezoutOk P (0xf1d4db2843662d58f28f2cc29fc4f26e ^^^ 1) 0x556864141afc7df41b042dd398106d68 0x372a0d028788d7e68fcf1f417fd8137b = true ∧ expo 0 chainP5 = 340282366920938463463374607431768211455 / 5 := by decide +kernel

def chainP17 : List (Bool × Nat × Nat) := [
  (true, 0x0, 0x2),
  (true, 0x0, 0x8),
  (true, 0x0, 0x80),
  (true, 0x0, 0x8000),
  (false, 0x0, 0x40000000),
  (false, 0x0, 0x1000000000000000),
  (false, 0x0, 0x1000000000000000000000000000000),
  (false, 0x12cbd0c7f8f92c16b10868c2b8433, 0xd11ae7f94995a9c36310a15f344075e1),
  (true, 0xb19206142a2f7d9a8751cc3f075c6c99, 0xe83209b6733f074c550433616a2ab1a5),
  (true, 0xba3a9a6002879dde27d59f4ac2efffb1, 0x17062dc0226ed6f00f9114a631b3481d),
  (true, 0x277d107f0709393866abb248ea9a354, 0x9c2d701a23858db96f44bf300f0d542e),
  (true, 0x94b43cd4de751b88ce17502a66ed6566, 0xf7dd4a37adce96005c027501644ea86a),
  (false, 0x5c6dd7ec94abf572790b353befaad007, 0xf5d2c8c7d73aaa98560b5cb810d2f409),
  (false, 0x5c69654494a48332cf07b30b63f172e4, 0x83bd8da29164fd42f1ecefc8b202f15d),
  (false, 0x4b2a93bf571e731a832eb54ef449dc0f, 0x658b49978b5662903435f65b069d864),
  (false, 0x166a88fa2dd44906242df0fc0b280f, 0x5f6ef5ff0f04bb2d792117032f133125),
  (true, 0x2776026a9829383dce4dee8425c3373b, 0x90aca00de2201fd545940f5fa434f1bb),
  (true, 0x940763af0096a05982a9fe090311f67b, 0x664e496dce0451b451417c9b4dfcf7d3),
  (true, 0x2cde9e88c9c0e8e0bf2520d62444bd21, 0x3e651b44ea5d940a38da7cd9dc4df145),
  (true, 0xb861261555a5319098a596a27398424, 0xdf76cdb0f34b63255a3ae1d7953fdf7e),
  (false, 0x5894434d386a38c13d1a696af92e8955, 0xb6f889470dc9d9979b459587b2909877),
  (false, 0x4ea72f372a90798bc428d503c7f4867e, 0xc292db36cb67cc7cf1a35a95377d35f),
  (false, 0x59e06b2b3e8295c443163ba081499a, 0x41d0714ff771f188f340cb215b22dd03),
  (false, 0x12caa4b2cd0660c6fda99976c7a7d224, 0xca83a668b3b5d9785ad9d2d4d17a2d59),
  (true, 0xb3568a8b4fba81d50a3eae8500a4e332, 0x121af1894c3445c6fc6125c40d3f27cc),
  (true, 0x2501d366562804bc44df6a9cd40665a, 0x127b8b37001822d931d86a7236305b6),
  (true, 0x25031c65bc00078264b66a7830227, 0x136adf677a13895597917eb4b1193185),
  (true, 0x2526ae747b69345ea859a4000a49867, 0x1f4da524fd0a493de62b3699c8064f),
  (false, 0x170d545cd7246fae824676ec2b9, 0x259227b74b68bb2f42140441a1534612),
  (false, 0x4a1595b7dfb7f202e3144604791bc4f, 0xc5d40d6ba5201da059620a722ed83f1),
  (false, 0x59f72c6f35c697815b4439f4ce8c4b, 0x5bdf1c860d1c92823e657fa71a0eb148),
  (false, 0x13a98455f06f78107b24581e8414db13, 0x5c24d68ac5f081403ae141a683abd541),
  (true, 0x277d1bf070a50c3a631ea354de257a12, 0x577a5de4a849387ff0632961c2ae37ac),
  (true, 0x27e05e90d5fab3ad2f7432cdaf1684b5, 0xc3f943fe6c185f4d7fdc16ab414b6723),
  (true, 0xb3c2a343da936c19813d3e099e47be76, 0x56f20baa39af1ed581f7e3f89ece4b38),
  (true, 0x27e29122325e58757fd2e08f2b601b05, 0xf5639b689ece6cade74d9ddda2c51893),
  (false, 0x5c692bf4a1d9515b4c89090ca6a63345, 0x6669583cf23f5a34838e61501372a0d6),
  (false, 0x166f4be1c465f2606b23d07b680b9e6a, 0xf8a13e32f4466b5a146b23e7059cb312),
  (false, 0x5c31ba3a1b1faa5d5387966bf402fde7, 0x95f71af7a0d0f7643dae51cedcf663e9),
  (false, 0x4a104513d9f34826e4e59a6cdffd2666, 0x5d39fcde267b1f018ea331ff62d6c583),
  (true, 0x277f40628be5b02fb68189271181fc88, 0xb82e11a7ab32a868e52cc6c90a7b2ef2),
  (true, 0x9df4431dbd9a899ddfe205811bddd2f4, 0xcb3bb4f8209887bbdf7760033a9de1e4),
  (true, 0xb3544e051fd7ee6a667c9445a0085642, 0xdc614b6875c6c5738d9e75ff3dcd2abe),
  (true, 0xb123b87f4c8edcacf94bff20eb14f1a7, 0x328a58438d688e31fb3b6c7512754785),
  (false, 0x59ab0a97d4b7a30353347f31fdda6cd, 0x38f279d072f771381bc845c22726f83a),
  (false, 0x5d53a00e15c54eab50487c9a9fddcce, 0xbb5a1ed50a7a952461fb098f466b6d9e),
  (false, 0x4effa880b13a262ca6c05d5765b18a1e, 0x83acea77d477ac709f2c34cfd56a9d3e),
  (false, 0x4b2a9292d0c1295eb9a2a945d691c60f, 0xbf0d59a1eb909adbf4446cf80cfd1a61),
  (true, 0x9ddae140b898602c975d229ededb8639, 0xae917077983b42136a5bf25db5fd5c5),
  (true, 0x9f81569663898c48e7a03da441cce7, 0x17fc2d6c0cb8c16ba36190b102927dcf),
  (true, 0x277696d7ed5657816291f91a894976c, 0xb49f3d9a49d5b7d29807138439dfd84e),
  (true, 0x9d47175a494444397fd8c4064d4e9182, 0x6c497d0415ef785afdd6c8436b081376),
  (false, 0x1620d2e41ae8c02c71c8d6d13ba018c1, 0x4d81fbba18a33213ccf3e2d3c83d3cfb),
  (false, 0x129353c71f0b74922de2d5bb9c314ea9, 0x9aeefbc9d12de5476e42b9dc493f9df2),
  (false, 0x4a4c3eafdfccc6e774e6c86e984f2029, 0x9fe758d2053e2f32d2d10446c604f033),
  (false, 0x4a5fd988582d8bc0bc99b8695571d3df, 0xd4973e823e8f74f65ee88836b559f80),
  (true, 0xb1b55e201a478b85fd348897129b9f, 0x9b4afe3037156b96f0f513db942fc945),
  (true, 0x949abb3b5ebc5015f0448558c4dfb693, 0x47dfb1fcee8c82b28d3190b228b779a3),
  (true, 0x25b9bb94307d3eaf99c2f5fd1400987c, 0x802a817d423e1d5dffca4aea0aef1f1e),
  (true, 0x965e8fc5829831adf2bf4a685a746741, 0xeb136cc355878f304c2a0b0002919c7),
  (false, 0x5d18d7caf22459aaa4c9909df88508, 0x7ed3cbb185edf4eda618acb1be52e6d),
  (false, 0x17089750799ae374d40b1b220c1290, 0x20f4ea80580eaaa2653b62d9e11eb721),
  (false, 0x4b2a859b212a7208b6b1279467571bb, 0xb239d5ba53d8716defdd5f43ef790818),
  (false, 0x4eb5bd0241b342bf9f5bbe2b2f1dc26e, 0x4da6a60e1adf4a90d89ec478b27c61fa),
  (true, 0x2526aec55a39372779ed0e0681907d9c, 0x4bf9ad814bce2e564ce4c9dbe437873c),
  (true, 0x250a7bfa988b88c36a71192f521083d6, 0x56fdee80cdcb090aafc850a3709750f2),
  (true, 0x27e2919a7d609bb211cd1cff85c31df0, 0x61ee4dc83445373f3a803f22cc6e258),
  (true, 0x2cf0aa80534b4a037a6bb02a21a219, 0xa47d7bf631d6a6b64b80d961ffa936a7),
  (false, 0x4f8f6bf39ceddbc3e47abb59bf946448, 0xfd6027b75e17d0fd4d917ddb31c75ead),
  (false, 0x5c2204b26e9b3e4f1030d2386bca15d1, 0x46fda295c480944c848d6157308ddc4e),
  (false, 0x12ddf5c153adea73193f9c0ac86dd5ac, 0x6afc19afffdf539d4d3d206380734af0),
  (false, 0x1636e56217ca0e6ce7f7164dcddc7d08, 0x43008ff6989b7dcf23c869d9e2820378),
  (true, 0x259c9d1d1c17f0cd3471a3ec224d42c2, 0x9cae3789bcc70dc7772d75ba41b4339e),
  (true, 0x94b4aa81416139f29c1bf7f8c4634a69, 0x7d5efaca589c1ca9d9b40f8396f44a5f),
  (true, 0x2e1a84dd956a2f6d9e6df8a7a9fcec06, 0x4384caae2dd6c08fc9d8d25c49da0b48),
  (true, 0x259c0b662839f0f9d8347d0ef24722bf, 0x3ec91207bf4d3a0beeb9f894b9a79b25),
  (false, 0x5c346f4f95afd7d2ce02d733b305713, 0xa3860ee582622240611963e947ff8510),
  (false, 0x4f98625e1a3d5446f9d3d67fb2613339, 0x276e148a25ac826dcbdb0fd7c1a37fc7),
  (false, 0x4a5b78c77e8d16e588eeedbf321fc43, 0x54eb016c9166876948bab399dcff8924),
  (false, 0x13f5fb03966cba27c89134c1cea211e5, 0x378677d16f4d394dc12cfc52bc8c39a3),
  (true, 0xb12af3aad6220f3eac910039305ecdb, 0xcbd95f78946de465b1aa62e263f14133),
  (true, 0xb354f4a00fdd7c482182d574751b530b, 0xdf453d8caeed72899ef4ec7f4bf60083),
  (true, 0xb1288dad66c8b7a6e3753967ba30eacf, 0x66041edc1a6e52c64aef445e37c4077f),
  (true, 0x2cdebb8074c1a8ed546a2a63da2bf8bb, 0xab4d2d36ff1a51111b52d8a0d7cb71b3),
  (false, 0x4fd314b723bbbb3c0e1df9f3db635791, 0x262bf2b621c7938e77d84b7d04b828da),
  (false, 0x4a489e9117d76887dd40cec52218f66, 0x3e5ba2e8ed876bf5a42fdc537f757786),
  (false, 0x5c30cf3fb0c07c05cb5685d8fd26b97, 0x27fe7569c157dbccc23a0c0a5333b429),
  (false, 0x4a5fd8f9f83181dd44981c4368ffe11, 0x5cf4a7abed8822675ab5aa10e551091e),
  (true, 0x277daa6003a4a6f72c8017fc9219459e, 0x36b14b6a762ac45e979cd433abae7c42),
  (true, 0xb10fd52875a0ee48db542a0eadf6e9f, 0x5567556daace2a43eb4b1feae8b62a4d),
  (true, 0x27e939905cd550a19bbea0edfe10dd4f, 0x5c29f78fdee94b689f838b6d159d2d57),
  (true, 0x277d1b41e99f15cd6f9fbd89eef90a74, 0xfdd71984162b238019cbc99f914e7646),
  (false, 0x5c224a1434e3bca29cfbbf5dfed53921, 0xf6b8068d7a8871c30c399049730d7f5b),
  (false, 0x5c6ced3b49ddcd0a4665fb7f2dcc32f0, 0x1c305940171304c799a9faeaffae8c15),
  (false, 0x1755c01fd047212bbb7aca5b4619def, 0x8200c054719cf2abd3265687ea9cae84),
  (false, 0x4b2bf1eb8bfe0e3c6bdfc2cfd0b9fdff, 0x125a0153315e34433a6dee1e23ef1575),
  (true, 0x25038a17c18757de1e40573d6ac586c, 0xb48fe8016ecea59f848cb6d23627c6),
  (true, 0x9d47150382ebbccf9308dfc62ea6, 0x9c1740eedd00f535224fd2666004f5aa),
  (true, 0x94b437777c5c6e7b512ee602ef410ddb, 0x4ef7fce2499988b0f8e7771266394eb1),
  (true, 0x252db59b84861860e10eed4e0fa912b0, 0x483230403a2a37ce45f977b47b529c92),
  (false, 0x1280fa1e194d231f58e47ad544e33e94, 0xe586f582f9d9fd0827814a721e39b0c8),
  (false, 0x5d45cbbd48f6c2b6857c7e9f433c1157, 0xe91956f1dc9f1999dd308dc47d47ee3d),
  (false, 0x5d1c65715bbc98ec649e7f19fc056c88, 0xd67617829aae0c31f7d2830afb3cdba9),
  (false, 0x58de40b37371e51a01c0463b5ac09011, 0xb01805b196483f3ae283a01ee38ff31e),
  (true, 0x9d62168be013405fa41f0682c4958029, 0x3bec511146dfe860970c262ca4abc79f),
  (true, 0xba14a70669fe39d37c392bf941e77c9, 0x67decb7a576af7ce884faef4ad4b533d),
  (true, 0x2cdc53f5bb4f2eb399499fe425b66fac, 0xa3fcc01c3b0af75f1e5dd832c57ee606),
  (true, 0x9f30ea888f93353967c5ac102ab6dc7a, 0xa8307f337a60c9805b6726549c7ea6de),
  (false, 0x4fd69df35c0d78e5b7dfa85865b9cba5, 0x1b6e23982f9da76b96c235142d979127),
  (false, 0x1621a222bcb08baa7d61cc4487ea3f3, 0xd127982e0fb59440c9cfb6e9a80e60b4),
  (false, 0x58c906cc830d50e7fd20c67e61c76bba, 0xad182722a067bda3edbe7b73e44882a6),
  (false, 0x4fc57e675f54ac239e13dcd38567b55f, 0x6ecb980b8fd0081c72e4ec73badecb11),
  (true, 0x2c4856770f71594bc88eee9bbc5d1ec8, 0x91bdbee9741c68963f512f660312393a),
  (true, 0x9405388e39e834c2da54a9888f0931ba, 0xd5a0f39d23a80cd183e55ba2c677db3e),
  (true, 0xb1b70c488888d63d4e37487231802fdc, 0x3d439c7fbe331d02f02bf46a774222dc),
  (true, 0xb8d27baa20306767c7e546a39b68468, 0xf7f4066982eadcff4fbd3c0da6afadf8),
  (false, 0x5c6dd31471f63f3e468cd7849203e5c5, 0xae6335e7409d65046e71dd52bc353113),
  (false, 0x4fc0f7354b0d10df9dfd21dac01fe190, 0x8727360fae82caa0cea9445de3bf0375),
  (false, 0x4b381223bdbdccad570ad691fb80e152, 0x824fef22f154f254011d702296bb907f),
  (false, 0x4b2be37c250d8af75bd989cb8a16ddc2, 0xcb82644f8f2c3be36f4215968fb7494b),
  (true, 0xb354d3f3bdffcd1c8ad58e112d3eb530, 0x60bf5b28281f1169b13e656c1479cc9a),
  (true, 0x2cf2d436cb2c71c9441c52a53c747487, 0xabf152b4a573e7788bbef454d5026945),
  (true, 0x9fa6b4bfb40752f2091db66efa47436d, 0x7ac1f0890d8270facd19c1e08c484969),
  (true, 0x2e34bb5168955397c1f22ae10e1f08cb, 0x687918be600179b5be1bf2951239274b)]

theorem chainP17_ok : chainOk P 1 chainP17 0x687918be600179b5be1bf2951239274b = true ∧ bezoutOk P (0x687918be600179b5be1bf2951239274b ^^^ 1) 0x70b3fbca377e711544cf6a365902a35c 0x135c2dfaa2a9ffbfbd8d0febfc4df07b = true ∧ expo 0 chainP17 = 340282366920938463463374607431768211455 / 17 := by decide +kernel

def chainP257 : List (Bool × Nat × Nat) := [
  (true, 0x0, 0x2),
  (true, 0x0, 0x8),
  (true, 0x0, 0x80),
  (true, 0x0, 0x8000),
  (true, 0x0, 0x80000000),
  (true, 0x0, 0x8000000000000000),
  (true, 0x0, 0x80000000000000000000000000000000),
  (true, 0x965e863fc7c960b588434615c219e747, 0xcc852a9444d8bd4d00f237a6284bd68d),
  (false, 0x59bd3c7763898a2408817801721091c6, 0x30110c9e57a9f0701c3227e072296ef3),
  (false, 0x59e4810105904f9b99e2950cb02a1ac, 0x196f4da81b066d064fc49ff9ea1063a1),
  (false, 0x166a8d720ac4d818e7b9260b5fa67c9, 0x2071e89bc42ca5ffd06b661f48a26596),
  (false, 0x4b2e36516643cd53a2d7c123d7cf08f, 0xd5230a50096716edaa4a09a1fa5a7ba1),
  (false, 0x58dbcd0ec52235dc70a37532f6829e04, 0xf39730e837308ba11806d1ebe7aed8bd),
  (false, 0x5c7f0eb809398663d04042919213a1ec, 0xb30ad125409f63ecc1512e7ff6dc1835),
  (false, 0x4eb494249aaaf09274351c7c330135e9, 0x854d65d12a4db375b38154b93177ff66),
  (false, 0x4b3cb6e126e0712b663785a733e1439d, 0x1d99c959bfa837e936a3ee826136ae0f),
  (true, 0x2e87ed61f5019670fddafeab41b12e1, 0x8fea4d0f06e302cc36bf1e3f479cbaa5),
  (true, 0x96e6c9b9dd679f282ee0435770c19063, 0xed50b8b7a2f6480ea79ea433eb0400f3),
  (true, 0xba1d784024ed53ed0e6cfc3371b5827b, 0x757483a6d3e5e32af802b2bbc050bb53),
  (true, 0x2e8cd3a1579f5e03cbb917f86e903c73, 0xbdb749a23ff2530a05ee2635d601d42b),
  (true, 0x9dd31955f617fe3888f7a6ef6b878e71, 0xb46e7b74f51d3849d3b0b345d4590bf5),
  (true, 0x9d47afad804e804e08de8374f4f1528e, 0x33c83f0fb812f795708bee0fc095b338),
  (true, 0xb371db60ad2beb056c4ab3e3df8a599, 0x2b60d870739d7fb38421342cb7928427),
  (true, 0x9f8a68540521cd3411355b17ca9f496, 0xbf058fff85bd530fbf3532f8ac09a4b8),
  (false, 0x4eed70eb2bd16bbf10021a895479fb68, 0xe6dcf47031dd0ec9b4e8414f077baf18),
  (false, 0x5d40465c850aaac71856313a5bb7293f, 0xbda9c69ba88e61db871c44d70ede465),
  (false, 0x4ee98ddb5b135567f3c4c30ab80af8, 0xcab6c9089defa857d914b6dcbc350c39),
  (false, 0x59ab40c81fa84289e9213ba50618de61, 0x1042db28a032279555e6de4cf5bcecce),
  (false, 0x12cafc3453ac0e1ab523aa5cc65d376, 0xc0f15e59bba1c351f735274708525866),
  (false, 0x59e4cfa3feff229ef16a4586dacc68b6, 0xdda3c8011bc6142d3a01c564f10fb966),
  (false, 0x5890a962c03e0042f080f9dacb4fb765, 0xc1a34e60bc4d3f01874f108b4f667c27),
  (false, 0x59e5f0fd2c93a35c85c682ce0665cdc1, 0xa70f2f3b496f5daf9c904406e6368efa),
  (true, 0x9f15c5d7332fba17ce85d5e689bbd3fc, 0x26ad81d6b01dee8f931321d4a672a31c),
  (true, 0x94985a0782ce54041a8266ab55b230e, 0x18ad9e88a51af0c173ad13eea344b33a),
  (true, 0x2cfbb14aa64b9be1db3dc7373197725, 0x5483e47547c5f3814a762e9e64c4497b),
  (true, 0x27ebda63813845c307754d878c2ba4f0, 0xfaee2472aad17f8480c7d22d67d425da),
  (true, 0xb86a34b3033f760a892e596016e141a2, 0xbc3378da231ee3c651931e77735a94b6),
  (true, 0x9dd1d654f4484c19ecc84a19df1c43c3, 0x30c3bbc541e41f3bee4a8f3f5bfa2199),
  (true, 0xb3c21b985be3b0f991ec002651b683b, 0x16fce46f5a5315a52002bc3989f07e1b),
  (true, 0x2753017d5775a1a9e8c38adf0efe7c6, 0xf513b109f38eb64a8aa3cbebc8b91e28),
  (false, 0x5c693ca13cde57ed77121a03139048fc, 0x9948067efd0e9bad4329a1147a21f4d4),
  (false, 0x4a49ef6d7065c08f9981ba3392d9b141, 0x8fef45db8bff5be34f3b2f1037b3187f),
  (false, 0x4b7364cf0995738ad05e3bef70594092, 0xab4fe1e320218bcf1762a9f2a96fe37b),
  (false, 0x4fd314b3c8f2a552627d8344f9aea632, 0xc2409522e63303847940fb1ef9bec30b),
  (false, 0x59e033e7b034473610fab869c8d28a2b, 0xd7ae3d77f225e9c65fae483c8e33d82c),
  (false, 0x58df348d7a642416d10f9241cc64eeec, 0x9c2ab3e7bb06814c783f4b30d97ac34),
  (false, 0x4a5a1e7d6342260e51e18344516dca, 0xa060057d4494c7a5d2176d188e22476),
  (false, 0x4f9da157393f0df887fa2ee4ded9ce, 0x6c563694d181206e492653851416ece),
  (true, 0x2c41a7299f76e3ee64653c96ec667c, 0x2224d1219e7e3c15527559300bd2fdbc),
  (true, 0x96c84cb51d094a5c3f05df651ef7d8c, 0xaab063d3f0475e41a5dfdd4cf1137de4),
  (true, 0x9fa4c8505f33430712693c2040e9a187, 0xe5beab5934042adf8fcf4aab5616e0ed),
  (true, 0xba8b9cd07a647f9c21f2773e8eb40d43, 0x310b60909e1219377e2abf5571078e93),
  (true, 0xb3ecb9c557a3583c3b4803a7c83ce4d, 0xea9d5881b6fde4f474c7ee6af00cb5a1),
  (true, 0xba33600bdd5e98371e0c156d6a2690e0, 0xf4e47be4f2d286ed82558d8aad67f1a2),
  (true, 0xb8d098e3ccedd796438444f6fb0888ca, 0x509c22c30bd13adfd098eee0b6351a6e),
  (true, 0x27ce4f233281cb064e016e367c56ab52, 0x976c2f9bbcd89cf7f007a1a609d94bc6),
  (false, 0x4a14bdaaa29970141d9dc1364d0dd06c, 0x753f6caccf4cfae48c7a79df78a4a5f0),
  (false, 0x17467b55970868e600d8e7aeb5b58389, 0x8c096a5fc812da24b133917b65bb0357),
  (false, 0x4b76a7c62e3714a0851273d91b41f809, 0x2e63b386bf3b04be2f7bc218b282c9c2),
  (false, 0x4efb42ae3d08cc6185310e1b9ea63ce, 0x95ce8da3857347abb307fe8d17d29dde),
  (false, 0x4a1040c7d924627492abb0b51ab7d899, 0x96dc99da7a0e4383bd28d7396cbe64f3),
  (false, 0x4a15dfa6ea63fc1f84b33a9eaf05bf96, 0x3e7751b7ae118b8eb1b46f581d3db097),
  (false, 0x5c30818b7d176f2a8de1a4cc71eddcc, 0xaff769cab28cdf8a1a8f45bf6abbd91),
  (false, 0x4fc19199610f496cb82d68f15aa15f, 0x895ffb70c315a7d8c94c6fc8c35c8204),
  (true, 0x96caa6b576bb8a5c6b934b043005db80, 0x40654aec1300ce85ca133418fab8eea0),
  (true, 0x25978d5a53cde253e8249585dabaafac, 0x2c6b3d443746cd692b4d18fb38a424a4),
  (true, 0x9d60d2b6c3fc3ed320d9400e6cbe103, 0x52080baa69aa5d5fac8fc7a7abd7a1d1),
  (true, 0x27c7bee9330ac34e4b99f1c82221b129, 0x6e7f6eef2cf35b4c00e45714efdd835),
  (true, 0x2c48cb30344def1bf7fdded67e6525, 0x9da233fd2eb9318fd1633fa51cc2e7d1),
  (true, 0x94b6f348909c2fce9a5f76f974a3651d, 0x20f4d9cf93b9ba7ec3cc4a792521cd99),
  (true, 0x96550b36f12c58789d816e744b6656b, 0x7e3ff749db49ba38dc36d23e233ba42b),
  (true, 0x2e1194bffe4e5fa742d17611bd8ad764, 0xb70d9f0fcc9621fd617c8c9cca6c5d16),
  (false, 0x4ea65fe31a5d719a199dbe46e8ac2595, 0x6ef1c61ff5e28ffc68ba264aae3a9477),
  (false, 0x16242eea4088399be82dcbd73ea31c37, 0xef74d53b36f303a3f0f3fbf079d01e48),
  (false, 0x5d0a0a740a4809d50f8d7dc209c54089, 0xbb5d7f5db9647e1d461e8939d3b4f717),
  (false, 0x4effa897f2db9f7ac6650ebd5e2995a8, 0xb4a21f93969a2aa83dcca7322bb9ed0d),
  (false, 0x4ea38e6ba1073146608c080420d4d42e, 0xae5ecfeafc99e112cd4e4e1fd3ea192b),
  (false, 0x4fc0f2f3962b0200e440ce222050a3aa, 0x6fef1901cae4dfd362d29a57e4042103),
  (false, 0x16250326ff08751cf7f1fecb76a0b50f, 0x3852fbf0b8aa31c03fccb27154303e30),
  (false, 0x5d5759d1d59bc6931db8255186147d3, 0x5bc5aecc376eae28cc5c053d5522c841),
  (true, 0x27530a6d3cc307a050285d1820ede1c2, 0xa33da94ea3e8c0f70573b7553a1aa81c),
  (true, 0x9f305943dd3f722a4020a9e336e0cd7d, 0xb9c776fd25d6bee0b7ecf6b56e71ab1b),
  (true, 0x9df6a05f4196be49aa833c67da151f61, 0x3df811178da41170c0ca4e91e0ac0405),
  (true, 0xb8dba4542bcbc1e76cc22ab1a5b6199, 0x13a68d0ff7c71f3a1430aee2c5e37285),
  (true, 0x252d99d8ee6875305b17c5e4dae4da6, 0x6dd2307bb148990011cd58ab318604a0),
  (true, 0x2c436828963bfcae8ec7cdb7c2e3e4aa, 0x5f90865c296ce87c3d6c6a08b03f2046),
  (true, 0x2776ba25af8d4ef9d0e7e72f8c6181aa, 0x269d6ba23f12e327ee0df3803474bb6e),
  (true, 0x9498e9c50643c1056eebdf860217188, 0xee3ec98753d45b2b612e87627de26d50),
  (false, 0x5d0b344d4a3247d467447109a2b6baf1, 0xd9ff59e90918dcf5a98d2f784e8069ff),
  (false, 0x5882710cc49c29b09cec677bfcbcdc8d, 0xd11afe28c90b8a1f46f2d35b11a870be),
  (false, 0x58c9030a147158f666fd7e50bd29a98a, 0xde5f7175ab8b915afaae8464df57f3f2),
  (false, 0x58956b088d32edb70101f1f5acd7af50, 0x41ffc7a2dd370f79a07671fc6fc1b134),
  (false, 0x12caa05c0d4a556a25805963d60e66a1, 0x35946aaf1507df29cf08957d8123b8df),
  (false, 0x58de44169c302692f2e220c4ad48ca1, 0x241339e2199c4b5de34e05c4332b6a9a),
  (false, 0x4a03ec81f57e7b6dfbd2f1c6951a5b8, 0xd8cc70bd344d5eddc66ce8ee24e67ac),
  (false, 0x5883582a1b6ffe287be586265af974, 0x3ca346a07b54b77c8ab4d0f8f09db13c),
  (true, 0xb8fc46cc42004faded7a8fa996d45e7, 0x4b482ef1680d247503a3c563a7b1804d),
  (true, 0x250ae69a43e0c09020380bbb7adad7a8, 0x3b4ca21eb57341090a9d30aa1c5d52ba),
  (true, 0xba1d54bb03d51c9c26d773e2516d5a2, 0xde72cc5dd82d3884d4f7f945cc1670b6),
  (true, 0xb12adfc5ff880231443305b8d6cdedbb, 0x5b3c32693ff5f25095d2d7c462123231),
  (true, 0x2753b20c1a40bfdc258d1618b78dbbf7, 0x2a4d7787d5c1e743b615f7d58509901f),
  (true, 0x9faf62bbf10747100bce2f3a8c5b00a, 0x571307ee7cdfc30092318f287d17448c),
  (true, 0x27e072f6bcbb797def1af547677dc2ed, 0xe5148da49c0bebc01dc95b4e3d18116b),
  (true, 0xba8b0374261fba7cc8f0ac1fa80cb16b, 0x1849cc3c6df1c5b50817f4e5fb3d0223),
  (false, 0x16780ceeae8ef980e69e551f88a3149, 0xc64018d0ba9ca443aaa1e8deb2812012),
  (false, 0x59f2f8373cbb69554a64ff9ee58504c8, 0x2c3449af7790bc868c411e47565cec3c),
  (false, 0x4eb152eb6498c28f10cdb0cbceafa2b, 0x77ad91f95acfbd8c1bdd6130410a0d39),
  (false, 0x174283a6b633fa0797dac60a8ded13b7, 0x20d560ea67aee5153c27fff0e378ec9c),
  (false, 0x4b2acea21fe9dff3e864151abf05df1, 0xd955b2ef1ef4b15d48708e7c07fad4af),
  (false, 0x58823edeb31dcc82021691ccb69d5c06, 0x95486c31a2a2f259fb5007059275fdb7),
  (false, 0x4a100bfebe4876c544886ba6bf937a4c, 0x10b69706c37a5986f0971312932d4311),
  (false, 0x12cf3ab469dad0e833e1001d51c96e3, 0x4b863b938fe764176f0cdabf4511bc50),
  (true, 0x250a55e9cae1bd59a1990a041e53bda1, 0x419ce2185c9890b000be6f8bb374a6cf),
  (true, 0x25956c4166a8671c3491a2fcad5b10ba, 0x3d5b65e73816f9e659171497551b3e1c),
  (true, 0xb8d25753efce008b62f10b21fe28618, 0x74a0fae681a5bcd42084c55b769d5728),
  (true, 0x2e8e3b6eab56166cf5cc701e94b0daf2, 0x6d5832adb96e8336bbbab25fb9ed768e),
  (true, 0x2c43fee92b63b308970ff554fc235f26, 0x1440ae3444e335f02a5747f901a27daa),
  (true, 0x27cc82e4ee0efa26b79ced287006816, 0x52b89ad1d0aedb7b9757fadb79a4479a),
  (true, 0x27c7238bb34b8c8f749a08f422cf3514, 0x7e786e7f5acf5e420f994e07aa22dc4),
  (true, 0x2e11b1066061aa6c629785c69c55f8, 0x5a916eae8f790bc12c2510eec3d7bd08)]

theorem chainP257_ok : chainOk P 1 chainP257 0x5a916eae8f790bc12c2510eec3d7bd08 = true ∧ bezoutOk P (0x5a916eae8f790bc12c2510eec3d7bd08 ^^^ 1) 0x269935b1f2b18aa9e8bbd1aa85a79afa 0xb88b23ddf68ec6073d02909afd2afcd = true ∧ expo 0 chainP257 = 340282366920938463463374607431768211455 / 257 := by decide +kernel

def chainP641 : List (Bool × Nat × Nat) := [
  (true, 0x0, 0x2),
  (true, 0x0, 0x8),
  (false, 0x0, 0x40),
  (false, 0x0, 0x1000),
  (true, 0x0, 0x2000000),
  (true, 0x0, 0x8000000000000),
  (false, 0x0, 0x40000000000000000000000000),
  (false, 0x12cbd0c7f8f92c16b108, 0x6687469ef82c5f8a1f19c0f3b687d278),
  (false, 0x166f16eaf49a5a540c42416538b42024, 0x3232b13ce658d19ee944671aafc6361c),
  (true, 0xb35fca60a6ce931776b5d3ec9707b34, 0x60596d89b450a3e8c0898a7da30d420c),
  (true, 0x2cf26eb6fda6a88828bdc86a0bd522a0, 0x351efc9989c3d55137ad7a3f64e8dcc0),
  (true, 0xb1b5e43fafc9a5eab42d0f069bf0a24, 0xda101f5b6851c24bd7423cfa3788455c),
  (true, 0xb10f649fede6ff0d06ed8c5d8f4c93fd, 0x2441e1d8ea67e94890e262320968f69b),
  (false, 0x4a02d2b98eb5578aca5ada1019cba76, 0x852a9240c89dda364a76becf93bfbe77),
  (true, 0x9679411e17c491d74df0b44e75b3e0fe, 0xe847f9cbb1518d9976fe9c5b8e8ff9e0),
  (true, 0xba3ab4ec475d6390043d631296a5d7f5, 0x593baa24b9f1b8be003ae0520d92ed43),
  (false, 0x13ad6be5230f581f8fc7cbffb6c72b84, 0x665f9d413c3113891dd1ea7947b4d839),
  (false, 0x166f4e69ad8be66fad778608cdf40a24, 0xf02b03f1d49795269c9964cbb821e01d),
  (false, 0x5c7ade19df925be63f14ed2ff9f9862e, 0xe54800aaee7642d8030d2019adba762b),
  (false, 0x5d459204d120093fb18537d02fde03b7, 0x9fc997c659e6a769b427c229e0061d98),
  (false, 0x4a5fdd67a3c374274fae0457a778efc9, 0x781924e2b8f1810ee65ae4c9211298d7),
  (false, 0x171eb7dfdcf91fc2775c3a8c13aedb3c, 0xc6002fe3e94f7d2ab96ae0bb3a1d9cc1),
  (false, 0x59f2eafce9f58893d92cc8d8a2961452, 0xcd3a86ad6941817809ea3323f244966f),
  (true, 0xb378bc4ea195a8210fb3c3fdfcb46ec5, 0x37df30cd65428371184b41c63c8d45f9),
  (true, 0xb12886054b00170f7832e55c1e6b600, 0x898aba31fb775fdfe769141b7395d882),
  (true, 0x96ca1702c05d091681a696c1945c4c86, 0x91561cd2dcfa66b311f6a403ecde1e6a),
  (true, 0x940582bf0b1dba54e99f608c31104b37, 0x6cc4c63c7dc8d24e5c07d6e4c5e85ed5),
  (true, 0x2c413327be4c92a2c7ce64b7ed7b81c6, 0xae409eec6a9ccf54b3f32d2730e67c80),
  (true, 0x9f81e704dd4daa15dadd591931ec07f8, 0x7907c32f8af704c36bf3dfe8d28ff328),
  (true, 0x2e3f3426cd58dbec8c2f47b3eba02600, 0x72b412059a6716821b434f8c76920a80),
  (true, 0x2ea2cb5b10d8c3be002962c3c10ddcc5, 0x379c59cf14fe03dc004d8a75ede92353),
  (true, 0xb12adfce5cbc598adea490b6555aad2, 0xca9c04736d810058731f4de017b939e4),
  (false, 0x59ab44352f92de47c32c512680f66279, 0x8dcf62e9157cb35296505d19eee5de17),
  (false, 0x4b77d289c8ff17cd2b27855636b9a544, 0x249433d340ac5f75a0c9a74b86056f69),
  (true, 0x940ebe0133ccc06fe440baa8af0f2d0, 0xf52a576001f28ab3673083d5aefa4032),
  (true, 0xb8d272ea56bb9a7d5b4e792d5764fb86, 0x74fffccdfe01d2566f93a60943de496a),
  (false, 0x17470e0c42ac1402cc40dd312438485e, 0x9b4f485218204bae32bcd351a52dbdee),
  (false, 0x4a4d5d8e069486f6882387d082f1a46a, 0x98b67404ec022284e0f6356dd9028052),
  (true, 0x94913fefcf920080e6c6b8674e208cc9, 0xaf86204207dc09d49ab80395e5f32a9f),
  (true, 0x9f830d9b8d93480c17ed34b6b9a7eaf8, 0x6f3b40e24a3416ec123e2e8fac613a82),
  (true, 0x2c4ab7f81343ca204c6bc187006b0d2f, 0xf939c66e1cdb00169a744efebfe6e3dd),
  (false, 0x5c30dccf9a01405f05cd8fbced32a59f, 0xe245818e4d20e52bbff8bac9c7af9214),
  (false, 0x5d52c7c5a859feac6e1fdca2a4f31c44, 0x19523433b83fa69d45c819597ffb286c),
  (false, 0x166ad11b6a0c81dafe4d466b93ee272, 0x815669d932149a3283da4cd00211d5de),
  (false, 0x4b2e7c53ed4731324111fb41a68ee9c6, 0x3b7feb08c29680034ee994ebc62fd7f6),
  (true, 0xba1de7c3bd78daf6249cf23f3f4bd06, 0xd0b0f7f3af394d84875637b330ac1cca),
  (false, 0x58c8606532ddbfdb1c1f2c47793175c2, 0x9dca36f3d6e6b1e0196575c376c5145a),
  (false, 0x4a5b6f9643e8e9f30f5d85b4c47c69e5, 0x5ee7a9ce7dd52796761ee41b081e84f7),
  (true, 0x2774cdda2668de67a113ca1198b69dbf, 0x52c14f984bcd390ec8e92f37dff7b48f),
  (true, 0x27c70db436f4ef5625b84778061fa0ea, 0xfae4bcfa103d293c7b63d952e8313f2c),
  (true, 0xb86a342cacc01e587e8d06dc2a2ba82d, 0x283b1e1190d633accc3d68d772c1232b),
  (true, 0x9f3bd443137cc406fe60dd375d13f40, 0xc5f5f6afd545e467ff5753e8e940464a),
  (true, 0xb3ee51b962fcafb2d0802e92d7832d83, 0x6e7bd62812833e61eee1127a684e5af9),
  (true, 0x2c48cb153e1899cf79cd3b3ebb215a38, 0x8c35e43b5695f5c1ac9a42b64323eea),
  (true, 0x96ed440391d69c33dc669201b42f7b, 0x3199656ce7e8a8842961b27084b3b2d1),
  (false, 0x59f2fc966490c1a1fe418b8b525b98a, 0x966036cca91df11a746dd5220d4d17a7),
  (false, 0x4a15914e4b138a9f94141abf38eca6f2, 0x950b3593fc5ab716760546e799b92e1b),
  (false, 0x4a101930e36b92115bcd80258883f15c, 0xa7a5afa45bd6bbcbdac7d645cfa5d4b1),
  (false, 0x4f8aad39f821e78ca0e35550ce4ccdc1, 0xdae14c4f7fd0c910aeb67addf41cfee),
  (false, 0x5887ee3413491be9847ca1fc1f7c4f, 0x7c466a6550d5c5e87ef658df850a96a1),
  (false, 0x170c6fb41e86499a29f83a1893892637, 0x49a1c7ab8834ee37febf2604fab795c),
  (false, 0x12819ca52905df03f24e723ebdbd36, 0xfcd57455c3bb7540c7f4505b9572c8a2),
  (false, 0x5c2366ad9c49b6dfebcab43d6358b002, 0x626705321cdda7bd0cba9cf5a27cef5a),
  (false, 0x167d806c46454711063b382a304ac296, 0xc88d39e1b789a7af9505661fa50f4fd6),
  (true, 0xb35fefd91436b1d134cdd860b5115e74, 0x4904e6c8b11a30d060907ba09a597a44),
  (true, 0x2503a656fbeb8f5c650af8f59ec8c938, 0x12124a1971118bdbf71018dd236e3548),
  (false, 0x1280ed0530daeedbd7484be67d860cc, 0xa599ad8ef192823670895bfc52617c4),
  (false, 0x4f8e1a0a6475366476bd4a45f2c329, 0xa48d146755918a5b9d866fd50394a427),
  (true, 0x9f1e6f12a05aaa830cd55f3521361cfe, 0x75a69b4fd4eadbfc328ab0ff3fdc4fe0),
  (true, 0x2e8c62386d106a7da2ec8ac461be54f0, 0x2ecbc9261ed8dd715ca48a2ae14cf750),
  (false, 0x4effbfc6ca7c52fa85bd6754399016a, 0x42b29b28176722c90abdea4ba617b606),
  (false, 0x12cf2c863b9c0a16873144d39be9e1cf, 0x595272623cbd0ff0a11fd5acb17c0e61),
  (false, 0x13ad7dd65c845e0e1a581f38080ddec4, 0x3c69dafaeb08630ae9c612915fe8f4fd),
  (true, 0xb8f773a4c4a7cabafa70bfa5c8d8eff, 0x41abaf5c1bd59dfd09bd715a9f15dec7),
  (true, 0x259567537ac684ed5c5fa51cc7f02e03, 0x7ab70ccb373b4119da6abcd9e1c7fcdb),
  (true, 0x2e3495d6116e1479ee32f6aaed7f9735, 0xf829576be923431b6e4f3856e9c49b89),
  (true, 0xb863e2bcc2e0c5fefaefe63a926420bb, 0x8f42fe811c0d5626a15ab69fe315139b),
  (false, 0x4b732b0a386a12b44350bcfa0729d2e0, 0xf095037115e04e26bf2ff1769b25a6e5),
  (true, 0xb8f521eb07af36f2df4fd88d3c87a2a2, 0x9fae810a773399e8ce3c8641c6bdcf1c),
  (true, 0x94bf9613a72c2a1934cb4e8d5a05c36d, 0xd0293df7f8669c8511e25fc13a29ebeb),
  (false, 0x58c82a2c969b3e51b886b27f8c2811e6, 0xadefe9b618e41527f1faf8e10d044f07),
  (false, 0x4fc5220a899143581aaf369d80968e3b, 0xc7d692cfd0eec604c3d55f046d08be8c),
  (false, 0x59f39e9ffc93537272ea0d90b63eeaf4, 0x7239fa00eefd64f7fa69deffc1b263bc),
  (false, 0x17512eda5e401ee628aa18464595ee5d, 0xa5bc9225a7f940ba525890686967480b),
  (false, 0x4f8e1eab72eb7fe93af8793caca7eff0, 0xb1862b867a31c7c6ec14031e66f24615),
  (false, 0x4eb06da650edfdec4458f2502f911b19, 0xf5b831b0585d69d0230807dd966d5236),
  (false, 0x5c69737271d565b17ccf7319c8b96335, 0x26b581a9f1845c64109214c0e367d017),
  (true, 0x949876f5cb20b8b4e9e1001c7970f6e, 0x824584983edf21ddaf297d480ea04990),
  (true, 0x9657c6675d1affd0d75415e51bb96058, 0xeb2580a43aafde87d3c8845efdcdfe48),
  (true, 0xba31a4853e657613c03050d97ef4dba2, 0x566779052d1751b94866df6fabe840be),
  (true, 0x27e205022e003e32df6006a6076aea94, 0x810ee14ec4f246c5cd4fb6f1192e7764),
  (true, 0x965cdfffc9571fde212f6fc96e3d11dc, 0x7991d06b6df50f892fbf068602d68a54),
  (true, 0x2e3fa00dc1646c0f4f6663309a52abf6, 0x22135d77a4b1160b90ee2f50d7305592),
  (true, 0x96c8fd9fe750bceb410d4b6ba1127c8, 0x6ef4e49e31a157d0665e9923e7217e30),
  (true, 0x2c485df346a7ffeece0f983cf5075541, 0x115f9d68d79225cc35358135315e5f6f),
  (true, 0x25b04145d74bf614718b8b68b2f555f, 0xace5af75821f2758b5a736098ec107af),
  (false, 0x4fc40ef80a8412d5481d8b0e3c870f77, 0x76529fe604eb9bfb4d76b0ac97f225c8),
  (false, 0x1743f33d1a2e5db482f56a8b0f6e8961, 0xe98831f391ee37eb06948dd83b2ec4cf),
  (true, 0xba385ee73ef8f3272a9c01cd4a8ef353, 0xb1ab2acf325b0bac124c65ded03966b),
  (true, 0x9d60d298d9e7d314a12abc931aaa94, 0xa5d4d2bf19654ac91206a08af4bd1546),
  (false, 0x4f8e08996b95fc466ceab6cd27e1ef07, 0xf58f86ec7552576a86ba93b3ed18d559),
  (false, 0x5c6976fb23d7527cf860247829fc0686, 0xf2f4512c695a053aca0b1430fd926923),
  (true, 0xb8fc68f35302c6150dd724c8376ec814, 0xdda38f3bbdba0880290c8caf8b909c46),
  (true, 0xb12152c5a5c5019ad203d726799d2cb1, 0x571755a5eef0dbe5ea94b27edddfa117),
  (true, 0x27e072d30cdd6df927c6fc387e08d1df, 0x7248e3b7cfe211a75760abf8e76bc6af),
  (false, 0x1751398eea619b8565f1174452680aff, 0xe17274fc3e59c7fb3186e2550b330c30),
  (false, 0x5d575c05d5151e64569cf036aa7d7faf, 0x68b7f32bb1877e43a1d7633b7e1d3f55),
  (false, 0x163245131ae05bdfca43c7fe7e84f0ef, 0x1eff3934fd0d923c42fd6c21a172f584),
  (false, 0x171b74d3381816f87e631a84fa4f271, 0x38282f698e388493094588d761e6576f),
  (true, 0xbaac50e839c88e28bfb525f76caf8c5, 0x75c63f5a38c659ec1d0399a9a585d7f9),
  (false, 0x174627655df14e386b2969c2be312d84, 0x54533b41ff1da4d35e644ef1f00f7f7d),
  (false, 0x13f5b5f9b6dc17f1c028219952e39aad, 0xf85aee3a6b5e5d8b7616406095ca75a),
  (true, 0xb863cc1c5070781885d05da789ec0d, 0x79bc62c3f303d01144ef0a8961a1c0e3),
  (true, 0x2e3fa9d92431d6bbfe416261f37f0665, 0xea067389139b9a43d8065f5de792ff39),
  (true, 0xba33f4914a956ec488caf84f53b9f699, 0x11cd9d1fea2f81648e2147bb97ca4525),
  (true, 0x25b901ac4bbcaceedf3741a8ef474ec, 0x3eaa0348d37441aadd89b7497c5ef646),
  (true, 0xb86a11085908a3a6bce62ff64e5bb76, 0x9e8aab0984c1208129d451224d99701a),
  (true, 0x94bdc629c9eb95b7f665733de08be91e, 0xd5c5fef92db6b05ef7427693aff50fe2),
  (true, 0xb1b7209d0f0ef0371b52d51c5b36dbce, 0xeef08d1721806d5e417738fcd8188dd2)]

theorem chainP641_ok : chainOk P 1 chainP641 0xeef08d1721806d5e417738fcd8188dd2 = true ∧ bezoutOk P (0xeef08d1721806d5e417738fcd8188dd2 ^^^ 1) 0x27575cb6ae66c22007246189e7d91e9 0x1c06b32c2107cedf54ac871f10db71e = true ∧ expo 0 chainP641 = 340282366920938463463374607431768211455 / 641 := by decide +kernel

def chainP65537 : List (Bool × Nat × Nat) := [
  (true, 0x0, 0x2),
  (true, 0x0, 0x8),
  (true, 0x0, 0x80),
  (true, 0x0, 0x8000),
  (true, 0x0, 0x80000000),
  (true, 0x0, 0x8000000000000000),
  (true, 0x0, 0x80000000000000000000000000000000),
  (true, 0x965e863fc7c960b588434615c219e747, 0xcc852a9444d8bd4d00f237a6284bd68d),
  (true, 0xb37a78eec71314481102f002e421238c, 0x6022193caf53e0e038644fc0e452dde6),
  (true, 0x2cf2408082c827cdccf14a8658150d60, 0xcb7a6d40d83368327e24ffcf50831d08),
  (true, 0xb3546b905626c0c73dc9305afd33e492, 0xec319b0885fbdf8815dd6dff1c9f2aae),
  (true, 0xba1f0dca25ea1092327cdcbafb4c5679, 0x5371cb478588d84454e30ddcee83aeaf),
  (true, 0x27c5c9acac34946f27045ea0b19fb004, 0x50bb6bc7c1bb919aec6821980ccd6e16),
  (true, 0x27ce466854d265debbdca374dded6087, 0xf1e7bc5c63b9fb2ae662d8ff5601a5e5),
  (true, 0xb8f75633d496509f938d2788b23eeddf, 0xd076394123412f9f8b1b05b4b4db8a7),
  (true, 0xb190732f0331b3948cd82da2112a48, 0xb1e270b0ef29173977dc5b3a7a0bc892),
  (false, 0x4eb07bcdac62e59a057a7dbb92d8c077, 0x2812cc1f054835549c70e0953aa35599),
  (false, 0x4f9da5ab79897ff5ecfbb075631f543, 0x659d0cf1c7b7e0348d146d23a7bb4f70),
  (false, 0x166a89c0fb24e14a0db54b9b21edce0c, 0xd39ff0e7d485da226b65739dd52a54c4),
  (false, 0x58cdfac281a04101a426ccb1e2c7e253, 0xe8142bd67425c0f5d4c0080c58e339d1),
  (false, 0x5d1d499488e0966b74a957897cf97763, 0xdd8ceca46997ffd53903ca9edafc34d0),
  (false, 0x5890ad8c4a756b89691481b6c9e20a0a, 0x78c2411736504b6fc5acad56c0c4a126),
  (false, 0x171eef59554dc6c09702a0d41c4a8a11, 0x66ccc06053e2e9647d5a331d4861654b),
  (false, 0x166f046fde6ee6d3a38e3587268a4e1a, 0x4e8489538f493d8269754e08f6e14693),
  (false, 0x1296cd9dd2b678def92e9b486bd7f1ee, 0x50f516d87aa35b63f8a6066dcf09173f),
  (false, 0x13e731a2bbc47357762aeeed23f6d0a2, 0x1663857381541857774acfae7ac0ec6b),
  (false, 0x13ad254780addc2ca39eb09e6eb3d6b, 0x38dd1908b019bb9f620c3c5f08ce7aec),
  (false, 0x5d53eee79ce333b0cf4c37c7d2bdf29, 0x954fe6963366a0f1e3b8e1ad20e39467),
  (false, 0x4a100be9a0b11d9e6931bf8a167b9fd2, 0xc453dd79f823e57a302a2321b6dd0cfb),
  (false, 0x59f64bea77f72e721a55da399880cfd0, 0xbf64a6c465fd64436ef3a540c03946f5),
  (false, 0x4eed669327629318b040307ebd2032d2, 0xbc9f4b4bbe488a9a6d72c812f78446ff),
  (false, 0x4ee8a4ee2c027ebb3462dcdf9b30f38d, 0x2339c4783d239b3395e75d5175b1a5be),
  (true, 0x96edf59a1144fcf6bf3247d702ceaa2, 0xd95c2cb5fd8aff57634abb20dcd85596),
  (true, 0xb1047d29f57ac985632a99d801aac273, 0xf1e66bf5c43350cbb46f057b9decbe09),
  (true, 0xb8f756313c52215447cb668cc6e67730, 0x6d70b3925fa9adf3f82324be591cf292),
  (true, 0x2c43f71a0bdaa472ca1c21e3c985fbca, 0x537ba4af464670e276dc9c7ca6f6316e),
  (true, 0x27c5c933bb10ce3776de2b0c6304c198, 0xd62a67dc0b1a9e2ca28e80e2e04027a0),
  (true, 0xb1bca61bdaf8606f54dbae34dbfdd20e, 0xc5d77329e11ee5b9f720ac6a7b28c69a),
  (true, 0xb3ee58d5790eeea415b5f9cb9b492ae6, 0xd14ddedca6c35f8963d327f33f4200ca),
  (true, 0xb19221f451231b40d3e2cfd83cd16d1c, 0x588b84f83b818f0159a24becd38eaabc),
  (true, 0x275813d2437a9e3f630bd5df7b729b25, 0x605d5c5242df9f74e24b0f5fe97dad53),
  (true, 0x2cf26e9361395d75461c152001ee791b, 0x2a4400f89bc3fecbf911207a96173473),
  (true, 0x9faf6bf9669e59d33f69b0f74e58a09, 0x728cf7282928894b8c50641b50447cdd),
  (true, 0x2ea2c0f166aef7c6c2de434c6b6b223c, 0x29f25722b949f33eacc1bb4fd38de876),
  (true, 0x9f157632c876f22723f7cfb7c363cdb, 0xc799caa72b15a96a2dd888e0f5745311),
  (true, 0xb3e718108a4435567b5a8164c7a09c5f, 0x4d18a893a2094d298b86493fbf98ba07),
  (true, 0x2526331de208183ecf3bb79d8f65df0f, 0xd660ca4d2d52015c2833273e32e2381f),
  (true, 0xb1bc8313df93a7a28668bf552624fb85, 0x550c8846991d56578c8c5eb047b46739),
  (false, 0x13f48affe3066ef30ff31c59682fc581, 0xf80d2d66c41a317f84b30ecfa9ff9c6e),
  (false, 0x5c31f5fe498b5f2c54cf8b68979e106f, 0x15f558d15b6e6214ed640c1127a68741),
  (false, 0x13f06089a2caf1506a903aceab6e596, 0x910d32f57d8125dbcc8259ab1e3ee393),
  (false, 0x4a02d2f65da0decd669e1440480978b6, 0xbf8835f5f5af78865c8676c92cc31c77),
  (false, 0x4eed3b9cee1ecbe5f4fc561c3a92e88c, 0xfbe50cf2764d721c4c0c369a603c8151),
  (false, 0x5c3436aa381386a82ac66e7914e9b833, 0x31abb2f75109379196934985f1abb0e0),
  (false, 0x59f2a53c55f8d55673e0c664566e861, 0x13102e6267881614b08bf873d3844f8f),
  (false, 0x1292269fbede8bcaaa1dae03c96f346, 0x4581ea6c06b4de71ca556c988e1c777),
  (false, 0x12d87c8401c5594d5257918fd6b178, 0x851c29f410d78db97c7b912e10f7c3bd),
  (false, 0x4b3ca5077504cad7611d0421c424914e, 0xdf9d7ebbe5b95860ce5c743ca4aa510b),
  (false, 0x58941e55a03d6ba550de4c712d7c2f5c, 0x4292f12aa75ad048cfcc74434b53ffb1),
  (false, 0x12cf2834d99b4d6d18ab6b634288444c, 0x20f89afb411680e460fe74e27f9fc905),
  (false, 0x4b2a80041d4f1dac6294f6143fe4711, 0xb9657c9c014fd2d1b6b0fe6850374a4e),
  (false, 0x4efb1fb6a55ef8cf32a3561773c8b7be, 0xb0c7941c86c4310433d218b1145cd55e),
  (false, 0x4eb153d1ee05bc4c9eff87078b0cece4, 0x154016bcbade14a93654d88f30950a48),
  (false, 0x13f48aa65f59646b91a0f82341fc863, 0x27f6f82df2bd07495a359d180dbed091),
  (true, 0x94bfb89f76f3c2c33ea98712badd6ad, 0x96b2464b1b4cc82d39737aa55da33409),
  (true, 0x942b930580cc1a630b528cab5c9d2a50, 0x5533897d8b466229c90e95cadbe77b2),
  (true, 0x27e91e7ba1c0476b1e24c752aa7dc2, 0xd476347e66f2af5304f702ffc2abb616),
  (true, 0xb1b5e48e8c71da154b0d2305bd101c3e, 0x94e3ac9921a62fb820f98d8afb5ff9a2),
  (true, 0x9422d121dbee35c3c71f9ce3bcbd077d, 0xd84fca5383866ca9dd8b2d28a84247b3),
  (true, 0xb1062601118fd5a6920c7ee5791c2328, 0x92e0c0acf0f51cbac977370afc7ec392),
  (true, 0x940e236327304bded21cc3ec3ccb97c2, 0xe18ffa8d66068633e66e0c6087db3816),
  (true, 0xbaae004f1958a5005be0f1b55d640b65, 0xdf7bbe833252eee532126061e8ed3e1b),
  (true, 0xb128862bce29dd1aca994499f0098a91, 0xaa652301898beeea8ffde64fdcf7b455),
  (true, 0x9fa479e7e9d70d3b0583da614e7d0f96, 0xe5ced1939d6d1f1034f8f113c91d57b0),
  (true, 0xba8bb27b67a436c1e78dea1fe0c5e87d, 0xd21cf00b5f84597996cd0deff5f6d0bb),
  (true, 0xb1993aaaa1129bf359aa27fbe77d1288, 0x5ef18196c552cc48dd8d2c2ddc641e72),
  (true, 0x2774cfafa7ca5cc8d10188f934d86d8f, 0xf5f9e8ef84adb0988327e9650eb40bbd),
  (true, 0xb8d2c371aa5b5f4dcf8b2408322f9f02, 0x5d9a5a83968f7c6661e65f077823f4fc),
  (true, 0x277fdf52463c4bf3229ca2aea3ba6310, 0x7127961818e28c3ef20e5935a50fa150),
  (true, 0x2ea963c53d15f0ae9b09a0838ac59583, 0x4f581cb7e159e1d32c5e1a752113b071),
  (false, 0x1297b9b15e9e0fffc6a5dcc1df42df17, 0x58a2485bfb5501b760ff38f6f9961abc),
  (false, 0x13ac0d118fcf9a6e2227b78b501d4f16, 0x7954516502cdbb35ba540998823c2742),
  (false, 0x171f89f1df298962e2981ebf7312626c, 0xa7cf1d6047b65bb782eb7737e1b22be0),
  (false, 0x4f8abb0f0fd52e7617ddd3a4628c0696, 0xad8a4484dbb70be04cd6992b7b77f692),
  (false, 0x4fc5346005cff48260943b603c17b188, 0x8cdf10539de13bcaea596c09fd3244fc),
  (false, 0x4b76ff186edd8220ecca5f167dd3da7d, 0x8e677f914e530bf24ef7b451258a41eb),
  (false, 0x4b7203166c67c611fef45b2680cc7dfc, 0x60bdb0fa31dfaf925c23bd6b1c84a7d1),
  (false, 0x16796a1f8a7a8735c6421ca41aa95130, 0x5b6a61a2178034fc5e1bca26a2aca111),
  (false, 0x13a9caf70a2d84b6f7aab84ceeb85390, 0xd169a9cfe94c362aa34c65668a11cd71),
  (false, 0x58c9145a0032792c693bc358b99135c6, 0x7e7fba08c50633d27c0b25b42557e7a3),
  (false, 0x1708d8943d73dd095ce8b9625e874390, 0xd2643e51f140f785b83f85fb9fa7875),
  (false, 0x58cc8a4bbf89fd45f0f3912c9d4822, 0x1f2ccbf2ff7a971d6d525c0ae2d223af),
  (false, 0x170c33dd31d660db873c8becd2595f2, 0x53cf20c4ca8194ed5ab871621b77cf5b),
  (false, 0x13e2aa3a57475c4ed14b93e8464c0e00, 0xba8606e45271c99eef7fbffe6f18b45),
  (false, 0x4efedcac766582e762faa6e4d0b6aa, 0xb0364a57b8898caadd9cb3a9131d657),
  (false, 0x4eb10faa40c840a9bd9c0e1fdc35ee, 0xd77bef1dff17a641a8cdd10a384abb2f),
  (true, 0xb1bed8add622022a8a931c140512b958, 0xa8e2e1b0629046900519c736aaba13e2),
  (true, 0x9fad8a7f14e79dae5d4d45a2f8ec268b, 0xcb76cebe2d24d8707009478ea982b601),
  (true, 0xb3546b2300319a70e791a248d54d0872, 0x9eb6c5e62869cad025ed0287fc87478c),
  (true, 0x94bdcda6beff79d5057ed55ed431f9f4, 0x4d8f67fe773f6ac4dff3718c2c05a24c),
  (true, 0x2526a734066d2a5c8eef102457df11b7, 0xed41479be3da2c12dd8a28e16554977d),
  (true, 0xba1d7a1bbfc2fda5ce77c637619f82e8, 0x7ef0943917d3bf309eb1083786f9107a),
  (true, 0x2e1127ce00b2f97cd4c1a82dc569892a, 0x54581a3cb01460458981296607ef1e4e),
  (true, 0x27eb6b6e06cbf4244886f8ecd884b9d2, 0x59f1004a4de5ac7f868095b1d6f83a46),
  (true, 0x275a649cc564a345a89c7e668f9fdafc, 0xb8744f98fda4bffbb8605d4cdbfefebc),
  (true, 0x9df4644c7a17a7978ab040c2224a7786, 0x545401a516fbb9d7587cc16fb9408dc2),
  (true, 0x27eb6bddcd28c88daca9d6b8ae9c1c63, 0x197588ed95c874c8a823f3735a396cd9),
  (true, 0x2cd5368b3c0f4fcd40666aacc988b91, 0x5eb7c2b24848d386dcdac71adc3dbb5d),
  (true, 0x2774ea14d190d56a643e9064d2e2232d, 0xb0044438287b99a399653478826a0029),
  (true, 0x9d62146176b961494fb35c0ceab2ec72, 0xd18f7a24e665e55920ccdf11efb5530c),
  (true, 0xb19292348c650f19ed721e3260bb1c2b, 0xf873f3ba967629d4d720a5f7f18b4ac9),
  (true, 0xb863c5edbd07df47ac33d84e76944495, 0x63db22837129f04276b0667b5548bae1)]

theorem chainP65537_ok : chainOk P 1 chainP65537 0x63db22837129f04276b0667b5548bae1 = true ∧ bezoutOk P (0x63db22837129f04276b0667b5548bae1 ^^^ 1) 0x799c348f222013dd1689919b68fa9982 0x13047a0c045393c21d9836b3a9eab653 = true ∧ expo 0 chainP65537 = 340282366920938463463374607431768211455 / 65537 := by decide +kernel

def chainP274177 : List (Bool × Nat × Nat) := [
  (true, 0x0, 0x2),
  (true, 0x0, 0x8),
  (true, 0x0, 0x80),
  (true, 0x0, 0x8000),
  (false, 0x0, 0x40000000),
  (true, 0x0, 0x2000000000000000),
  (false, 0x0, 0x4000000000000000000000000000000),
  (false, 0x12cbd0c7f8f92c16b10868c2b8433c, 0xf29b46654e9c87762a4e39cfacafc5d4),
  (true, 0xb8fc44b9ed2cf4863faf9d2e93a1fb91, 0xa5ca0b7d30d1e8e4df2e14adeb7c6bff),
  (true, 0x9f1c13d1b0f83dcd1e4cc4491dc96854, 0x24e041330f85695e8132b441cb503526),
  (false, 0x4a062b74ce5aeeb4e14e561f2f5b01c, 0x70b4b45cf71c8aa346724f16923d520),
  (false, 0x1755d759f61982339670a06aceaafc, 0x5e17031a9951aba53f4aebd2bafc0a94),
  (false, 0x13ba3a97860387dc1e8632b9bae7e861, 0xca8cd07b7c98b86c87f70b6539ef5a9f),
  (false, 0x59ab4519ca444487dce942a369ba07b8, 0xd7ac7724fe5d5b9abe3ccf77243e59bd),
  (true, 0xb1be6913b42896f594f650f49e0e3773, 0xe09a3075a866f60704afbdf49928f583),
  (true, 0xbaac5b4b0632768923f78951edb302e4, 0x6bc0b378ef6d1c773f146ebd22aaa116),
  (true, 0x2c6f9831f393542556c58234a07b28a9, 0x30176f0377a373d2376f350ebd18089f),
  (true, 0xb3c900cfe020436ee60a1ed81974c58, 0xbd16d2ae198bca295e063a0ef59bdae2),
  (false, 0x4ee9c3362ad5a1f96e884f9ce8a4012f, 0xf28fbd76c29de138b3b032c795c4f3d1),
  (false, 0x5c7e2362dc7ea8f2a4c74654c9797195, 0x2a51617dd4722f5fa8042bdad60a4862),
  (false, 0x4fd7a60872d05b1c1d9d5025de0779d, 0xe3f2772f4f10f41285a1133db995021f),
  (true, 0xbaa74bbd4fe20a9ef2447203c3be3a86, 0xca3e900e4ee4fce3bbbe59d570e1aec8),
  (true, 0xb3561758c0b3a15a11906cc1f31b18e9, 0x5c4efbc074885f23f3f3530c797ad1f7),
  (false, 0x13be9bce85f9805ca5fd2de629eeb260, 0x8b9a02bd4e922fa0e6765108eafc4535),
  (false, 0x4b61b859a226ab58432664b1b67e343e, 0x4a88c345b5a60ad91160fde46584669b),
  (true, 0x25080c29c6b22b47ca3c536318e80aed, 0xd92c533fa292579d590905750f222b41),
  (true, 0xb1045382e89d6b942b0d715dbf2ff76d, 0x27575fc392519787fad4128378d66549),
  (true, 0x94b64b05f5c601f5ad8474b7abf4d38, 0x69daaff767db4acebae12ec1fff809ea),
  (false, 0x16337f8fe9f9d72733c11ca0222cec29, 0xa53410a21137d875f75f99ebe8e27573),
  (false, 0x4f8e55cf559c393de4295aea0c8827b3, 0xe53d47bd224370de0a60f60ef18a2664),
  (true, 0xba8b0a857ad67f2b02820b0625919735, 0x87757317725cdcd1d670ee2fda761123),
  (true, 0x96700380e0b499d05c6d426704ee9db3, 0x366f7f6dfddae13b7fe2f5f95d358d6b),
  (false, 0x588263c3e9208ff3331824ed52e0178, 0xb554edc861fb55732e804296842352ed),
  (true, 0x9d45fd74a58f538c11edfc6f240f278d, 0xce0003f80f84175de68a984d40985449),
  (false, 0x59b9c5bff2fd7de3f48ba568a829591b, 0x17e1ac02334a1db57f3d0cb5971de638),
  (false, 0x13bb5c2816660d19313d6b57eae8f5e, 0x7b4a9853addbed14225c82238c06a1ea),
  (false, 0x171b3a745c12b4ed217b327b715d41bd, 0xafd11f4ec5334beb95a2032d3dce05bf),
  (true, 0x9f832a7bf6b3d56e491887133e14ecaf, 0x96e19e256261f437e9fc44dbd9b331ff),
  (false, 0x4a15da606b67a0759458c37b41a99a79, 0xf7e42f2ade5b72c364f6f4a4169ef752),
  (false, 0x5c6dd238c802a5b064df9e23889fb974, 0xa3ccfce07ea371708e9106c71ba52468),
  (false, 0x4f9870da0b33eaa01f22efc89643caeb, 0xa647f5a5917a20877ba834996d1bb069),
  (false, 0x4f8bdcd632eb4cbe54f7b0e9f7971c62, 0x6d740c509aa9ee58161fff085af4c53f),
  (false, 0x1621fb9f80d0bcd963369dcd0738e096, 0xd47822bef63c1269878ebc8bcc4be5c7),
  (false, 0x58daf21a11659923d603314a46255881, 0x3323c1d80a2c7ba98fc30b1e6456d23a),
  (false, 0x59bd3c38fad4c44eff3575606667ed7, 0xbaf106a4733bf884e1fc9ffe83879b9),
  (false, 0x4efecbeeba06131d0ba93039e8842e, 0x748c98135e90fadda1e53175a79f6c3b),
  (true, 0x2e8e32b8a6e9cef0fcb50390dfec3e5d, 0x453d1f4aa56c92e78f228ba81fa3b7d1),
  (true, 0x25b064d9663bb45f6be728c634a2d643, 0x54b6bec38bbf8fd0cdb10c658092bd33),
  (true, 0x27ebd178fac9ac195e204ccb731279d8, 0x5c6401707065f3540fcc4c84e22086c2),
  (true, 0x277d3e676094b33915056a69e6233a2b, 0x240098867f34c82b89d20ae14659e861),
  (true, 0x9407fc2e71c508028924e7b53e1f14c, 0x5fcfac2958059a0657b671a7216e2706),
  (true, 0x27769d53885576a0860242f0cc035990, 0xab03a10cf1275e13ced9556ef7f5ea58),
  (true, 0x9fa60c43dcda10fbdde8a1d277621205, 0x31f12578e925e4a9ddec7f4c3369e793),
  (true, 0xb3e73f6fe6f898e247f89193820d896, 0x8efbacd821cffb4c3085487bb47a0a98),
  (true, 0x96e492985c5440fabbf9f04b69d8a2fa, 0x199697ea4a1d5229f4a68634c9ceb9f6),
  (true, 0x2cde9cf4260ca3b3717cda204d5f841, 0x9117cee08874ba34d184251b07ef447),
  (true, 0x9405a72a4271602cd4375b8b236221, 0xbcb618040e2e6f91b0d8d4d56df1f665),
  (true, 0x9dd1402d905ee418943dca2498d68f54, 0x7e6093ebb61eb352fce3bddc456e5aae),
  (true, 0x2e11b3c9fcbbdb00c27d4922df100c4c, 0xdf570add4bbe751bf2ccebc244ccbcac),
  (true, 0xb1288ffd722a35c17596f6a3c1bd6fd0, 0x696b37c1ed376b52de1d118589d0fb10),
  (true, 0x2c66627f0a5cdbaa5a79d90758f4237f, 0x84cb0174ba1e2f1b84fb7dea752aae5),
  (true, 0x967ba2ca0d9e97e6163dcf1dea370a, 0xad1db0e25bea26394cb2708a40cd2304),
  (true, 0x9f8afce9e45b2b9482a6b5c40a61a746, 0x9e0787caad0deb9e7b10dcdc9f640b02),
  (true, 0x94bd50c6d65f6831ec545dacc9c626cf, 0xeb6ea674b34733c773968ca0a9db037d),
  (false, 0x5d18c0c7fa5bb44ff4eef26bf089b139, 0x51a76f276ced3c050650c8813983b596),
  (false, 0x13e60efc7f9b8c6ffc0c16a71ef62bd0, 0xc571fccf7be9cf31b6ba10047c354ea4),
  (false, 0x59f763e139fef80b641db7685ba68005, 0x5dca78dd3728e49931fcc548c67faf03),
  (false, 0x13bffc4e4a63f7f09469448b322777bc, 0x409223a28fac8b8febf684c1a8be51),
  (true, 0x25973581615348c4419cc54cd9d9, 0x6de273884d60bea7e15c733a504d365),
  (false, 0x1621b18a10ee6d17435021e461336c, 0xd74a39b425d76d6b986657c1ab2fb0f5),
  (true, 0xb1bed393ac9f29f8dbb94a31262e915b, 0x41bbc225a999fbb3eb64c10286960f9b),
  (true, 0x2595650a2c9d8c7c75f9182734814578, 0x6b66065f7862d99ad685ddd0b90b822),
  (false, 0x163783937961a824d5340ad53113d6, 0x71350e7141cc6e568c24fdb5bfbf2e56),
  (false, 0x1754b0cadb3a71455623075793de522a, 0xf81f574a2b284698646487c4c9cb1cd2),
  (true, 0xb863e9aca2d223f7c571e8e381224da8, 0xa61314aea4845642f644b998ea0e8610),
  (true, 0x9f179e47934e8e549dafe91d1a5eeef5, 0xde5ed0c5c7ea559db9c85e1c0f7e8043),
  (true, 0xb12ad613dc2669d50669e037e74df0f1, 0x7da7c7d85401cd3d37d7d8a6ab5bef5),
  (true, 0x2e1a3cbc2cd03d7b77d0fde9c50df5, 0x668922343c6b11305dd29f3a02287961),
  (false, 0x166f16b7b49613459dc5ef9032173afc, 0xee0c15aea584d4cf242b7f884fc66a95),
  (false, 0x5d0b31d7e96a392497e1fd6244693db1, 0x1ededcdbf9405ea098d58c3b12109f2e),
  (false, 0x171b3feb648aea070f4248cb603a025, 0x444106af6eeddb5587963818aa7bbaa7),
  (false, 0x12d909ddc36d175929eb00715edb18b6, 0xd1e1dfd9974747d01a34d9136b23967),
  (true, 0xb192be7cf65ac99ec37e52a47a540a, 0x7332c47980dc5e4ae2389dc9e64f720c),
  (true, 0x2ea00453cded76a6b1b8e04d310bd4e9, 0x427a5bb9137bf644a6b1fa643e0df5d7),
  (true, 0x259eea53bdc7ae646cd95b86de3fce70, 0xfeb16a5e3bbb9c5b33d6de643e7cfa),
  (false, 0x5c27c23243e0a28e0b089b0e869f, 0xdd799266e824b52a14ad70e0a9bd8701),
  (false, 0x5890f1e560f5acdfa08d39e772880622, 0x6ded18a2ffa45141330e42614faf6cbf),
  (true, 0x2c4363acf8063319d907545ebcf44360, 0x3205b129f3294286ac594a343145658a),
  (true, 0xb35f7b433241cdee3b4850c1b8d1518, 0xd4b2c367e1c006e49999461ece295400),
  (false, 0x58daabb1425dbff555f980682945da41, 0x34d8af999ea2979942596f6da212e06f),
  (false, 0x58cda6e081fdc24742def29b8e3fdba, 0x28e901b6c8882f4e0b80cd8a3b5441e3),
  (false, 0x4f9866e85cb3b106c3b956947f2aa32, 0xb64af8a4f0125da7b12246e35d5464b),
  (true, 0x9d4ec3050a258468869076e7e3a46e, 0x7b3e94bdb65c04fff2c96d6fc94d8230),
  (true, 0x2e365a661cc3678b8ae409e847afc122, 0x7e4d5b999e001f1ccd51ddc552f36bbe),
  (false, 0x1708dd0e9bed6c10933c6f84edf30d2d, 0x94fda4a62f0a85948061c42d59ef1ddf),
  (false, 0x4a1169e106d7a60a7ec07580e9ccf6ea, 0xb0676375965331a505a3bbe004fd3cd3),
  (true, 0x9d6238980a8c71b246a200b5141f27a4, 0xbba66f6abe1136e903f8cc0d38d51bd6),
  (false, 0x4efff4a398189f31b5b88913162d3569, 0x5ee2e560bed5fe91430e402c1f587ce3),
  (true, 0x2774cdfdcd97be407cfbf5ed1ebcc0ae, 0xaf1dbbb3bbb457f159ab1f5f1ee12af0),
  (true, 0x9f839901873a12daf57b6596a607fc25, 0x7a93fe4f747f879fdeec1c812b30e0f3),
  (true, 0x2e349c96d65021ace8c7845c3bb6c78e, 0x8d633a627ba7ee22c2acf70237f4d010),
  (false, 0x4b779d4d88eedbe5b14010b6a0e4074a, 0xd267b91bd4cfe0415377ecd71937f1e6),
  (true, 0xb199149cd5f1898c22cc471e44520743, 0x47729877c8e37097fe07875fad91a819),
  (true, 0x25b9241ec78dd48f7d47ca25a5866bd1, 0x39c30f5fceff9d1346b39b08c2f9d09d),
  (true, 0xba826453fc1fa37b4b4968e316c9f75, 0x8315460058d3963ee6095ce1200fa861),
  (true, 0x9655b8d32db238d1f39578d007c742f1, 0x65b6a4531bef39947d7b511ca31078fd),
  (true, 0x2cd51a79e393d5c4995727f433a5943b, 0x6ccb637d86781a734531bef7e230c23b),
  (true, 0x2c41339fd4e5dc857363cda0f5295cc2, 0x7785b7498e64cf237e196af9b1507994),
  (true, 0x2e850ebed3cbb0fcc55ee8d9a5409143, 0x6e5b511ca2f858582f4d33d8f8ff1011),
  (true, 0x2c48c270400b43a6444524045baa8347, 0x52804dbb5514cfb0cbfacacf82488f)]

theorem chainP274177_ok : chainOk P 1 chainP274177 0x52804dbb5514cfb0cbfacacf82488f = true ∧ bezoutOk P (0x52804dbb5514cfb0cbfacacf82488f ^^^ 1) 0x2a9eeb1e8d0ee0f28600eb08bd0b93b1 0x921608eef256c24d8f3bae4d19b01 = true ∧ expo 0 chainP274177 = 340282366920938463463374607431768211455 / 274177 := by decide +kernel

def chainP6700417 : List (Bool × Nat × Nat) := [
  (true, 0x0, 0x2),
  (false, 0x0, 0x4),
  (true, 0x0, 0x20),
  (false, 0x0, 0x400),
  (false, 0x0, 0x100000),
  (false, 0x0, 0x10000000000),
  (false, 0x0, 0x100000000000000000000),
  (false, 0x12cbd0c7f, 0x9a3db34481072d1ac81b33f1bbc77de5),
  (false, 0x4a4c66627dd12b07b47e8480f9502fe9, 0x61a5f853a4fd8af5f157e20072f57866),
  (false, 0x167847c506cad8986882e6de5f94d01c, 0x8939c469076a13fb330e5c46f523e520),
  (true, 0x96ca8a6bc69a0edc2d25fa8dcfce444c, 0xc92693ef4bad3b72b0eb56554fca8404),
  (true, 0xb35d29059f25840d9971f0827eecc5d3, 0x7268306b29da2b7982367bbb81511361),
  (true, 0x2ea27a788d3b1b6fc1c14787e27bd631, 0xd64980e9712fc861be7bc8abc43c08bd),
  (true, 0xb1bc8ae215047919b56fb5ba0607766d, 0xcdc5ea12235930fae1143267878ee0e9),
  (true, 0xb3780403cdaa4b5da568d4c0990d6951, 0x6e3f48eac42c002344c895561545f31d),
  (true, 0x2c48eea79c8b04e4cb40137046edaa15, 0xac4b9752308d92200878383ce66af541),
  (true, 0x9f888271dc310863c3b4c2ac43c8f74d, 0x3c4dd74d9182c73ac115ea112b50d0a9),
  (true, 0xb8f7e7a33390237f27ef402ac33b05f, 0xaad667b8e7e6d819551b7959d63d1487),
  (true, 0x9fa4e48ee4b3194af4ffd58ed2c6bb42, 0xa557997107b18ff09393e85301bac9b4),
  (true, 0x9f1c8767488c34aee6791c3ad8fded3c, 0x4e0a7527beaeba8670d83f28733cb5f4),
  (true, 0x252d0ddf37dab7dcff4391ab4af553b2, 0xbf907b56c238173769e2ba0e9a96e8ee),
  (true, 0x9dda75f6dd8ec5637efe3dc5d31b03c3, 0x81b63c3e4144a3c7cc9cc0bb627cc319),
  (true, 0x965c420b32b407edff13c29b93bc6de7, 0xa7ccc1018c0d21230013234523fe106f),
  (true, 0x9f157615921b9f9096d8c5ce3f218be6, 0x1805a0061f5aa5a3946eb68e594d65e8),
  (true, 0x2cf24b99138159c45c953a566d0a77b, 0xabdfd21827adec52c1aa13695d9f4ad9),
  (true, 0x9fa6bd6066f564f32e5dc493098f8db9, 0xc2528b074102e54e8c64ec0f2a1601c5),
  (true, 0xb3c0659f7d7bcd1aed996aa598aafd8d, 0x2aa3a96188cdae3af56cad112b51cac9),
  (true, 0x9fa4c3d6d26261be98af411190a1754, 0x87441a783858ddf8a066a277c25ada0e),
  (true, 0x967008be07d3e01643260a08bd971033, 0x5de1970f2479224022cee71fde7b949),
  (true, 0x277ff164a4a4dca62f6ad012c17b89, 0x3dbf2673eb8dd5155d68dbe3ef7a5ed5),
  (true, 0xb8d9ffc4312ac81ba08f61ed5f1716b, 0x34746a1f478caf407d545b2fbc10c88b),
  (true, 0xb192b5404aa4cd2419a3bd45aa264db, 0xed00d85ad482246935e4113052e4b1b3),
  (false, 0x5d0eafc769c4577887a205ccc5dd2e73, 0xdf1c7e77118ed07302ec13a4b0c01d24),
  (true, 0xb128aaf79f3fbb06886b3d022b69a27c, 0xc3d4855e0076122f953524db7781a934),
  (false, 0x59e1554b88a4393755802ee8cfeb47b9, 0xd4266ad9242c76cd14e3b4c63129c057),
  (true, 0xb1b5c34070923cb50b74173ff336b419, 0x3b43f2f01a75a75d2a82d12f8b240d),
  (true, 0xba1d5f36246fb7d689499bd36fd, 0x8e767cf200c620428fa0fe744e9ca799),
  (true, 0x96e40477fba67ba8ec1f6ee410aa05ca, 0xd3155238210f214ff5ed9df5a472fbe4),
  (true, 0xb19b63442123a36dd588ca187d89af74, 0x983122d24c2a761677084a6505bf8f4c),
  (true, 0x9491a99fc57cabd9c5a2252f16b90da6, 0x3d0213adfb6893ea7d28c1a42ff26422),
  (true, 0xb8d022fcc102d682a7a6e4d780e049b, 0xb1fa5db6130dec7bd077168ba0b972f1),
  (true, 0x9d60f554758f73fef8acb369e55d9300, 0xc906aa6f43d19884e79bc2e8eb782b02),
  (false, 0x59ae90303e773dd456c43d4ee4f395a9, 0xeb570051da1fc4cc9ccb3d439599f1b3),
  (false, 0x5d18c513ff13ecc9a8bb93b3106b2121, 0xdd9f7f2efbe6b768137271d64025a24a),
  (false, 0x5890aca5233602bd7f492b6916f7a9d2, 0x835117adaf4fbd5d4777661409affaaa),
  (false, 0x4b2aceb09e282dda8494260c6fc2da7c, 0x2692d346a39df6f89372224ae0674d50),
  (false, 0x4a4c7121c1283b71ce72848401f265b, 0x1c381e7d050fecf1efb76fa1b29069b9),
  (false, 0x1755c4ac09bed69ddbcc9daf785a948, 0xd9ea79774844e81106f2cf6198f774f9),
  (false, 0x588270339a4f23d73c130afeb7826602, 0xbc4faceb839deb5c127cca31e791ac1f),
  (false, 0x4ee8fc265f9767c4975d9948ac22d74f, 0x2ba69ce68cbc6d51c763f74f9fdd2aa0),
  (false, 0x4fc0ab0580cb2701fb2d737db39c4b2, 0xb9ce2e1f7c0676776bd7808a31293bce),
  (false, 0x4efb5065b0995362e046bddb56605db8, 0xb686377506e013c1098b8d76bfce5ebc),
  (false, 0x4ea7383fabe1b0f9621aa57479787092, 0x5714e5ee02bf3c17337602d645ba37e),
  (false, 0x13f0396c569693da7cad9833ddf07d, 0x61e2d6c256447e0573287e05b466c7ef),
  (false, 0x16785519877b324c956a5b8cdbd64e9c, 0x61964973e29c555cc87d3ee5244b98e1),
  (false, 0x1678425e9f0e4685885942e24689906f, 0x72138368d639f9cbcfd3a6fcbcdc4714),
  (false, 0x17512a2720d942f3dde05330de4b2abc, 0x834a407d6f71248e85bae1001c3be444),
  (false, 0x4b2acfd281de10ad4903d7b4d29cbc27, 0xdf296ff0d9699e88a66ee3f389f6a1bd),
  (false, 0x589450f660e24d3cd7966b1de72a2756, 0x9a42b101e8e8896819e1864228901483),
  (false, 0x4a4c716b9ef517f9fd8e0d5f6e9a250d, 0x6f8e14b27a4aebfdbff7915cdcd6356e),
  (false, 0x1625155ef71bf93e11ceaad2c71dca2d, 0x7667ba10836664c7f77f7b41c6d41df),
  (false, 0x1743f6b0b0df58b2f0cf76e3bcc18b, 0x8e358526ce711d8fba884878be0a25c),
  (false, 0x4b7210f5ef6d796dde4dc46444fb97, 0xf9b2d58de88ddbc077f1d02804bd956d),
  (false, 0x5c3097ae693dffcf07382ce0e57d319f, 0x166261981a9e5a95f53bba5a8b351b14),
  (true, 0x275a4aa13e64139f7bdabe8327cad33, 0xeb2b8275d9b0b05faaef0e11c8f240c1),
  (false, 0x5d18d21fc951b8d1ad0bcfc35948def9, 0xd9be8e1539f4be9e3aaf577c73835986),
  (true, 0xb104c78cc073f4b134d60fca082acb25, 0xdcc345a21eccb8e5a2cc9b0dd88e97db),
  (false, 0x589193a6a3c04dbe480c113b2fdb4157, 0x87dcc7c78a8ab24beac91a57220edf38),
  (false, 0x4b384e178a29db9469030ba7d5bca599, 0x615e17c59bd5e3570e5b8f06a9b18be7),
  (false, 0x16781bf1302f3770fa2fecd9669050ed, 0x780a73cb8b73b6d154abe828de80ebde),
  (false, 0x171eb6f6ec4c6166db1f1284a7a5315d, 0x5ec75b49baf7112375004324d2ecd90f),
  (false, 0x13ba625fbb7bb2247fabe9e33b3a8634, 0x39e0b8b22ccb453ee9354b642ed77bf9),
  (false, 0x5d41795bb3e3c114a3fe37fcaebc62e, 0x81a81d5e35f7034f234b21a06b3ae23b),
  (false, 0x4b2e207476825b698f6f1d4a4bff5d1c, 0x7f8ec829f256b8f73b3ad5dfad9f1f71),
  (true, 0x2e1350a5a00bd7eb8455d8defebb59da, 0x3429802d0f6c07661c7e484603e67d94),
  (true, 0xb190c2bf553157e5cc6ab86a9f64857, 0x13c5566c71eb8ab735443061cec2db5d),
  (true, 0x252f5644a95e29bc6c873a03e32d1c5, 0xca9e63a933d6c187567b10ebb648eaf1),
  (true, 0xb356886316118ca34200337fad0478fd, 0xc15cf9658aea680008839b76e9b85739),
  (true, 0xb3cb59b7841507842d845af0161a2c1a, 0x4d11d98ca802b72ac3714c82554f2254),
  (true, 0x25263389cb5d57697c227b9b7801a3b2, 0x21ab2050adb73abcfbeca5dbd88330ee),
  (true, 0x9672ebfe1ae39f23e5e0206d2fe328d, 0x8c773cea21bf40b5f643f5390bdeb743),
  (true, 0x96ed619de4b7bc8124696fd52270239f, 0x5ccf6490c9e187c7671c094f6684814f),
  (true, 0x277da1c14009f1d381cdea779519d32d, 0x43d9615d320666cf6ba7e1d936e85221),
  (true, 0x259c2c19fc55e26b754fff08aeb6f908, 0x77716c84159fa297b5d48b9b9f69627a),
  (true, 0x2e85b66e40ac86911280ae2d8007fb93, 0x3cf64fdcc251e359f59f8ee49e18d809),
  (true, 0xb8fe385d1f8b4fd0e183402994c3e59, 0x356ed89e6b7ebafece2f67ac727bcb65),
  (true, 0xb1b70e8c048172322fd9b0c64a66c6b, 0x97c79d50f08621544f4da9edcf13d98b),
  (true, 0x9429e4f3d4115da1a080fc243aaada3f, 0x9ef84d1935e86e621f8d964454c4af),
  (true, 0x94bde88b25773b19a0650f5d2bcb, 0xa19309b2309d448e7457e95984969663),
  (true, 0x9f39a32ae36b30d9293df34bba0471e7, 0xe29fcefa43e71c1a8152cbd2aa750ee7),
  (true, 0xbaa53e84135a12f3eafb590999bc7313, 0x71bbd22b87b782f7b4921f4c2f95752b),
  (true, 0x2ea9f7712da74557a1539a65eb02cd92, 0x3c46479113d8661bc0b8f5bb41e515a4),
  (true, 0xb8f7ee7c52a0bf762a330a7e9f943b7, 0xcf2af1766e4f5364348f02b37f651fd),
  (true, 0xb371dbff96f402621898cdce86c43d, 0xaac150b78f411ac4f19d4d5dd046bfd9),
  (true, 0x9fa4e6f93e8a2b576ed6c66b5c12b6bc, 0x863e18de48673d49f4a5ec98def5f3d6),
  (true, 0x96727ff017bfab664ee0ea3ed69514ed, 0xf25f9fdea731b587670ffed0c161e3),
  (false, 0x5c7e7baaf61cc573eb8da345bf34, 0x5d5ed7b141fb8c45653be7ccaeede8a9),
  (true, 0x277f6cbe60c2ef6ec17199bd58eda8b9, 0xeb3d8d561d6e0ff02304522b65bed8c5),
  (false, 0x5d18d3250d254f352eb9d8a90d63c397, 0xc88fb5aef761f40fa479ed8591d6bc2c),
  (true, 0xb35fefd0e733b81a4e09a9c766488c4d, 0x241b16bb6fabfa819bb0366109da10b),
  (true, 0x9407d0669f4ca26b3bfc64ac95b71, 0xed8e7ad66de79c8140cc45c3ec2ca0f5),
  (true, 0xba1dc96a664a27aba2f8d2d2634fe6f8, 0x682150a3becc1dbcf127b79bf6aad60a),
  (true, 0x2c641e0da49ea762c7c94a18f62a5aeb, 0xd49ad3b2e13bb48b9909091aad9d4a1),
  (true, 0xb1b55e91300777fe98f42e1c495e4f, 0xdb988ea3aa2b38256ec709bd2423f4f7),
  (true, 0xb10dab2db9a50518554aac7ae9babf76, 0x990b659c3343a66808ca838132e24618),
  (true, 0x9493fb46512fc4356758358eefbe0599, 0x7dd9ffe956f11940035d4cd718f0ec27)]

theorem chainP6700417_ok : chainOk P 1 chainP6700417 0x7dd9ffe956f11940035d4cd718f0ec27 = true ∧ bezoutOk P (0x7dd9ffe956f11940035d4cd718f0ec27 ^^^ 1) 0xfec9a6dd2e30447a7f145c5b33bfb41d 0x2fbd07d474ef5b5566681de678c8cac1 = true ∧ expo 0 chainP6700417 = 340282366920938463463374607431768211455 / 6700417 := by decide +kernel

def chainP67280421310721 : List (Bool × Nat × Nat) := [
  (true, 0x0, 0x2),
  (false, 0x0, 0x4),
  (false, 0x0, 0x10),
  (false, 0x0, 0x100),
  (false, 0x0, 0x10000),
  (true, 0x0, 0x200000000),
  (false, 0x0, 0x40000000000000000),
  (true, 0x25, 0x81cf68010bfd3d704293c24c72bddef3),
  (true, 0x965c6c34215795f6012859c641968bbd, 0x5b982fca9743a6c62e81af8ac9c49df1),
  (true, 0x27532d12e1557eedbbde070049ac4910, 0xeaf6c148107d500a064d63afa3fc67f2),
  (true, 0xba334c64623599fbda4c9bc5229ca0d6, 0xac28d4fb77c36b0137849d0bad40e15a),
  (false, 0x4fc457444669be2e5464bc9a3c28b0b5, 0x45fa0afeeed6205a6090b1966bf352c7),
  (false, 0x12d86b9f74632f8906355ddda4ae04fb, 0xa77a6d20049703caffbfeb21cab9f4cc),
  (false, 0x4f8af5adf5cf0c95b3bc401b11c053e0, 0x46354bd73115a96cf4c19e38cc8d98f0),
  (false, 0x12ddac6eb22a9855a926b1133f0c3300, 0x763d34754bf1d3c7dc4bb7b277cdb400),
  (false, 0x1743e5180bd1f2cb04d65bd14cb1619f, 0x224000c9dc584108be5e2db1f9013f45),
  (false, 0x4b6540e1f07d4194d4f3848edd9fe85, 0x56a4700df334f74ae0d9cc7eaa316682),
  (false, 0x13f15b601adb3a30266fba784d7a87f1, 0xe24f5a8551a447131c49313410a843fb),
  (false, 0x5d52c78a6d684f21426be8ee72db2d3d, 0xc7103a58c1666a4ace3dbcbf1de3373e),
  (true, 0xb3e78edab372d82102bf91187e4a0818, 0xd41e94a8421be5974b816b6b1c704520),
  (true, 0xb1b5c8ea042037bcd15fba74c60bed46, 0xc680b2f58b20b996e605bb9440f7e522),
  (true, 0xb3e543a7c162b8e1e6596b848dec7afb, 0x21235debb18f44fc51f6980755a5e6d1),
  (true, 0x967b877170dffaab969c88ff50edd62, 0x21f923fc30fee569b99e7e4c7bda9c7c),
  (true, 0x96709785fdaf7f977a91c26491b3701, 0x96708da5be6210599fadc5af7d006a0f),
  (true, 0x942b20c571c0b016c1a34f3e2940b0cc, 0x7e481744cfb2e74befc83eebbad1b72e),
  (true, 0x2e11ba3adc2596a660f86dc3f61a2a51, 0x6362c8b370e637d4eb10a6fe059f6237),
  (true, 0x2cf95985e9d627b80e2bb6341f319d0a, 0x86bb3c565883a0e95c1f676b22c0c70c),
  (true, 0x9672e989561b12ab6a4591054eb4c1dd, 0x5782a1e34d0b7d70e8e7b3294e010f7b),
  (true, 0x27e0e6f386f1c5f0f9d383fe93d0cf5f, 0x82d4f20d7124fb9cd4205874d97f538f),
  (true, 0x96575262d6c08a648409efb14f6b52b8, 0x9bcaeb3c37ccddf13d083479f6b5bb42),
  (true, 0x949a2d65dafd23ac31c7c4d6077df469, 0x94bef5c47a708f16ec3fb30e1506e2ff),
  (true, 0x9422f65eb77e68f3dbe1371fb294bb45, 0x8d2dd133fe23ee0baa016c169c4eb379),
  (true, 0x96ef1fb6a6ac1ff8e7141c02eaec3095, 0x5dc0b9d087578dff40543ba21f105ce1),
  (true, 0x277ff8031c62cda1bedf82e5c129bf11, 0xf0f92517f48b31e213b196d0d115ca5d),
  (true, 0xb8f50daa8e2dbdbe3b2b397363f12fcc, 0x758f9c9933677f5797bdc92a9c5ed026),
  (true, 0x2e8c6bc982a1abb60333a3d3b7659cc7, 0x27e78a3e17100d48606cd3941a9e5025),
  (true, 0x94bf9d2faaf8f826421412a05b3416b, 0x89de56883e7d49026078862cfe49728b),
  (true, 0x96ca30e936741308d476905fef7a9f08, 0xd8b08fafd33fb461d5b10d82cf7e28f2),
  (true, 0xb1069e4c7441fcd97c487d28f085412e, 0x7517f9ca6f97c625aface19782c2d072),
  (true, 0x2e8cff580cd50c55d59cb4c9a2f4bb46, 0x645af44686f40ce9bd75b9f5824c152a),
  (true, 0x2cd7f91cda566979a0b257c42452ef13, 0x32800d060d366d2365563c70b8b36189),
  (true, 0xb3561cde61198a7bf7966535c2a5562, 0x8111f61b060e1bd647db5865b19646fc),
  (true, 0x965cdd1e448ddd36f1477f1879c084e0, 0xdaaec5f20a0c4b09dd10aa1abb839f00),
  (true, 0xb10ff947e4621104423ba61336a8a189, 0x47667598b225d326ee4f17ab8115e857),
  (true, 0x25b92662902941fbdc4101e502df80bb, 0x62752c5625018f83f83406c0764d133),
  (true, 0x2cfb02889a8bd1895bc34bb8033a53, 0x1b416a28e4576f369eef9433ef86abcb),
  (true, 0x2c43d996f431d2df0f6cc58093ee155, 0xbe111873d01809f8022db20c958c75a9),
  (true, 0x9dd8bad036cd794cd1ddc62f125ba6c9, 0x28daeaf5b3a58c419d09d0304beb4615),
  (true, 0x9f307ea1f4e861b35e5fb7cf7b1cfe2, 0x7c07fbcedf9105167fbc2369f69045dc),
  (true, 0x2e18fafd51fc40c2ae7fe7acde587bbc, 0x708a8c1a1b1005a850f8c2a1d0a1d8f4),
  (true, 0x2eaba535d92d3d880dbb3c93bbf16af4, 0x891afa2fb3d35bb4da7ead3242c409cc),
  (true, 0x96ca830519ed92acc6b5dc4ce880d346, 0xcf2c6ea1246c9c6b44106a44c091c782),
  (true, 0xb371dbd3f0025643b62658111b9f44b0, 0xce087b72292597a17fed55f827de4498),
  (true, 0xb3738be995413fb35939c37c2e633f2b, 0x6a13432d64c86d3fc6cb7732cbfad9e9),
  (true, 0x2c6d70d032a36b051c6d7f007e9a206c, 0x2824c5451eeee0eae2daef585d8d0d66),
  (true, 0x9f3bfa50f97e03d45dddd1968813b6b, 0xdb6b71819067e278b3ae69b61a77a481),
  (true, 0xb10d13d388b10251c5ad8129fb9a7252, 0x1dbe291510a1e3c9f655e07f5763846c),
  (true, 0x2e8779de6acfb1e355127a8a299a1d1, 0xd079785b551e3aad3d1fb94e95f69cbf),
  (true, 0xb1907397d311829252af3e21a5f62624, 0x29f639631baf38b67f2ae0ef63b14bf6),
  (true, 0x9f15746976e206539e48028544e1424, 0x8704d70e034d059101a9ef3105272574),
  (true, 0x96702d291524888e4fe59810bb751133, 0x68b63c51703b8ed3cec4167961ae3cc1),
  (true, 0x2c648a24dfcb5371cdfd20883233b83f, 0x2767737a212f9f890f406352e1349a27),
  (true, 0x94b6f8cc4f1dfce2bca8188a6d5dfb7, 0x4c2c6b6f6fecbe891baf52c4abee65f7),
  (true, 0x2524617e4cef28ed8e90e6744a6ac02a, 0x1950227e6a2f628423e61134efa789ec),
  (false, 0x166ad15056e2f58580335fd8ca73413, 0xeb201f3cab86e0523b999ab9a83e0451),
  (true, 0xba31a4a264017c1ee80a496c48491e99, 0xdea6b547a59b5181a17a74c9edf4b5a5),
  (true, 0xb12a6e701bbe722a11b4b48a8738c633, 0xe8ecab75277a4c7bfeecbd91803363c3),
  (true, 0xba3a2b4a6cd23f4619e19e1cc4325fd7, 0xb13f632828b6a18f6de95a2b6d1293f7),
  (true, 0x9d6046ba976278c2a6a98425484e8f84, 0x9b82db858ff700d116a9342029acbe16),
  (false, 0x4a4d04321764710a16d2811b52208043, 0xf4fd1dea94718f32601aad26d3cecc25),
  (true, 0xb8d09a2e9dd7b4aed1d1123e7c82866e, 0x99b618f3470ef2e5131046d67cc41498),
  (false, 0x4a49b34afd9613daac7b5092f49ab7e2, 0x1b7595f237c0b3555f8d66a24d28aebe),
  (false, 0x1621b40696a30674c0bee04d4fc5f89, 0x110c7b9585b55df1119930331146703),
  (false, 0x12d91e88078a7a8be8fc7f8e48b16, 0xb7c97720d685c02d705687c7bd209e17),
  (false, 0x4ea606151f48e13b09b5d41160637361, 0xb18f22ebd52b5a901383d5133a05e39a),
  (true, 0x9d60dbd8a6b3f75f3ffe39d3c54c3fcc, 0x58e167db36adf9361ccce1949fd800c),
  (true, 0x27583fbf8b5f35a57ddf824f300fb6, 0x23fbf6a8a0bf5891706e8c43bd55c0d2),
  (true, 0x96e6c99e8795c0b867c3b83edb2d584, 0x45a6786b99d993597cfddb792a55a034),
  (true, 0x25b0f043d4d423f5c7e937f5e74eba72, 0x1bc7eee92a800989ed75dbaaf6dd83ae),
  (true, 0x2c4abeb8d4e94bc9b0ce4c966e69dbe, 0xda9ae833d1d4a70ce801d09a4d0b8ba2),
  (true, 0xb10ff25ee86c5663989817bc4ed44657, 0x3c71cd9d35b99bc1bd99ab9863f44b75),
  (true, 0xb8f75f56aa341841b5d4941d0603445, 0xda375c46de05b1031241ddc3434a86f1),
  (true, 0xb10f6dd48b2a6876fcf7dd9baef57d8f, 0xd36beb9f78dd12ae768277b88657bb7)]

theorem chainP67280421310721_ok : chainOk P 1 chainP67280421310721 0xd36beb9f78dd12ae768277b88657bb7 = true ∧ bezoutOk P (0xd36beb9f78dd12ae768277b88657bb7 ^^^ 1) 0xc57939fb3ca919e245a7015824e23d2e 0x56a1ecf5d5797873651818e1e444d1f = true ∧ expo 0 chainP67280421310721 = 340282366920938463463374607431768211455 / 67280421310721 := by decide +kernel

end CRU.Prng.Cert
