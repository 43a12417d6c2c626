import Mathlib.Data.Nat.Notation

/-!
# Slopes for the multiplication of the base point of secp256k1 by its order

Computed outside of Lean.
-/

set_option autoImplicit false

namespace ElasticElgamal.Curves

/-- Slopes of the tangents and chords of double-and-add for the order of secp256k1 less one. -/
def secpSlopes : List (ℕ × Option ℕ) := [
  (0xcb35b28428101a303eb9d1235992ac63f58857c2f631ee6936d3aebbeddcd1b1,
    some 0x342119815c0f816f31f431a9fe98a6c76d11425ecaeaecf2d0ef6def197c56b0),
  (0xa69c17c116bc196cf7eeea54e921c6c8a847cd1fce7830438b85c5d11d8edaa9,
    some 0xad2b3931a9891201744bcc89bbb32e3afd8deed03753e4e36ff188142c1ae831),
  (0x659311991ca04078c1465534151e770c98550f899013bf61da72261783756574,
    some 0x25c5c9307759a75241f547426a6095a0bb85d8b106acfcd2732e68d811be1c9e),
  (0xe6a376128ed85c27cc8d1715fe74624dfcd01ee0115740f5c5e017d0161af012,
    some 0x93f65110c76f11b07c58e9c0e2a52efa148307670282ac14182494421e374bbd),
  (0x5e7003bc5c5e610d341ec2329dc7b1ed2c303306520bbc0fa534e7a7bd8f5dde,
    some 0xc9bc4235998f210bafc9977fe99b5039047652d9821ca9d0c8a80c4ce980245e),
  (0x32f5769efc31029e0584dbf3e6a5e370540b625e0b45daa714b9cf24586db45e,
    some 0x1a3155af6abf5bdee9a3650a76f935852cec622fa454097ea6c50bcd3c73657),
  (0xa970ed203cf82d78993982874828630b31f923d00678c56205bae895c74eeb79,
    some 0x2ad68424fbd3df569a0373ffd2d460262e251a2a6432f19b8d5beb1c8883b65b),
  (0xfdc05316bccdef41929bb444f454112992782117d25da4d2c0db71c8b74b8788,
    some 0x4b37c8b6ea2a57fae321e09e111fd106a0799995d565f545ff2511e711de79bc),
  (0x5ec9ea081be56f477e52d9ae87c1e0b2de6c3d9e3028a9faf5471bda5259dc98,
    some 0x75488fe6d6f5555711738503b8f0d5e0f8fb600126bb71e7f00b6042959baba7),
  (0x4004a33bac0d8f62d3f6c31239916e63f09ec97157baa54f5debb8cbe42b9e41,
    some 0x68639c1646ed2c0ec46965ba91e858fca8a3fb0eaa467ad500dcbe854902cd63),
  (0x307b140cd5924759a8a7433af4177f3f84b728d90350acc9a46c58a2416283eb,
    some 0xea99047f80666c87c4356f01bba505b8c29383d0f1efb93c599bff86c144c93e),
  (0xd6b5cf9acfc8f6136cd1865243cba6195cf1d713bb80bbbbc37cd562105a2306,
    some 0x8a7c2ea05451cac597ae5618f915c25646fda65e89e697b06aa769c6135e376),
  (0x4a6afd1c53c51ff03f1ef8b699756150670e26fae5218760cb22c3800e73eb83,
    some 0x1eaf3b101e8dcd7ff2b4f99c319be7a1f7d6b73deb2b22be1e708d6afa6a0d54),
  (0xe8e42d16ee4dd99241b885b3a36b816e6d286c8d3e9c72150028173378d6359,
    some 0xdfba4f8fe0dcfe15c4bd430eeff98965b9130f6a63c73df6c1921c22bb1cd254),
  (0xd94434077a3c1d4e96c5b3a2e081a85401a2628ae27a984e217363615d60a0fd,
    some 0xbbcfa52543c629540020d2ce5eaee81b54727ab0be0f8642e4d5b16bf5b41d46),
  (0xaab4e6c2e159f2cd6bb3f953d07b0d3cbe283c4540962262287452731b1fcc02,
    some 0x8182b17fc6dc6d8f3d9fcddd70c5ddfb0d0472210ebe7de98a6a10baac8d1897),
  (0xe11f6835001369eb75086850c070bec01046ba9c0e53c569b858592d253bcf01,
    some 0x697c83c2ceda54b32f6c3b03618021c7f17f6e39ad989f5b4b997fe45d552885),
  (0xcad98b2b7f0a886d5c6c49b457e52e12f411702c82c4781c5ece28fe320acdd2,
    some 0xbe96787c330b96736883265ffa6917bd94e0d2be9b7bcddcd5ca67c498a239da),
  (0x7bfa5d9b2231d1801424c515ce5da4a58a80657edd45be0188d1a3346b79faf4,
    some 0x9cf4bc381a4f40e93b537c96215331c947b566574d328a7c83b9da1d007d4d04),
  (0x8f7af2ee5d876514f60b94223fa655b2dfcf11f32ec2b63f985b437ba029394e,
    some 0xa69e5d458e4c86df47ae982e052155e7447d40e517fed7a1d397be3f23dfca7d),
  (0x9e8e880da673c5c35126886f5442a54fcc74f069ab5f4b17acd98f6ae0f9e7b0,
    some 0xefbca2601db795f0b70e42e3608accd681143d91c27547f996cc4040e6ed2e8a),
  (0xb3ca12947672652375ced933e50c977a4834b239bd2dd34104bbc5a03037bbf4,
    some 0xd79f4f01dca713bb20f7e4ec31b100cb8385182754c228a43b7d047a2253ef4c),
  (0xf714a25c129989ddb07bc33736ba00167e9b184172dfb22dda00c317a66fcb42,
    some 0xd2dc16026406ae35a0663c4ee71527665968052eb607e8e61d9c839c2c1f4c8),
  (0x165af19d1a8f8251a10f075372f3abea524b343b77743970005b7145e6846846,
    some 0x27096af8c8838142d8d79e997ec73b463efa3daa5871cee9ad4b57a474bcb05e),
  (0xa1785ce327b6253c5e3f3d54cfff680aceef47a5cbc144f3baa90f875e336534,
    some 0xed2630a67f09ce69ed21a45976bfa99c7488941eb280101f0910155fa548b8ef),
  (0x78e2f3cd7964eb916b99fb98c6106d355416254b6817130351672621c022fef9,
    some 0x517843307ee8601a66b5c07b23bfc8a5b6990dce19e27d1d0c1341d6e5db5a0a),
  (0x90b7accf9b0634e7636612afbbe7b0430cfe6f106996579305ab93ca24e960e9,
    some 0x27f195f6f4cf4b4f4247222bc5e0a63c84f8dc0044d8434e6967cd633583ac12),
  (0xedc100775d0e753b864e9c138af3e85ce9babbdc55156e5f125b981bbfd6f520,
    some 0x7a5876e995a23ca415b6401e8f1422044eb5d628b8e7f1be2f2b23b179638ce4),
  (0x34448962937c0d600c1967e421707c61a59d1c4adf47d1aaf76ca775be803070,
    some 0xec9d8b600f104ad578eea08a5a5f33d2386a46be5c8b144f525b5952a98bf573),
  (0xf8840516c757d0a6c6f15a190cba025bea247396f2dbc670ddb91854bb82dc9d,
    some 0x206dae4437a18c0b68bd3443b585779c016fcdf4c643b36a18e520f8ece00a7a),
  (0xb2307fd8e73711cbd2a5acb254cd6366ea58393ed307b03dcd9b9dd2666038d2,
    some 0x182ff63b52c5f822dc158ee256f391cc6756095669c3d4d07254f4072031e273),
  (0x2573d5756ec32c905e510a4ed8efd39fd4da7ce8f4300c38b82ed0b8898024a8,
    some 0xfff61f6a679952b10282c9d6b4964bab529faa70b621f2b31d3c88f0f7c7cc9e),
  (0xd734a7e52dbb035ffdc25990fa1ccdc84e14ba899f6c60d22620b21347e3109f,
    some 0xd4884fb8826291f77f821c16080f56a85c05dd6a22b2a11eeb48cda23c3ead0a),
  (0x53dee14e1e679efe0fa5ddbb4474c4bc3b62c38fb29ad2f66b32d02cf7769e26,
    some 0xca38791b0a89b2e2b2fe934b7923fa72237c623fecb30bfadd6410fd49ef94c),
  (0xb863f4f981f73bb8ce379072cb8929e3d5143b31be0ba2850acd8d2a9428a15b,
    some 0x4e236135fb12ae1dd09f7b6c4362369ab0f04edf24575a62633b681957080d9),
  (0x4df58bfddc64feed703e053aeb426c49b42ef4e12cf39569dd1c47b17ace3b8f,
    some 0x92776b0dafe4eca1bf06e30cd3425605d46299b3dd71d5ad3dce56797550eaf0),
  (0xc6833c3264fd8e7192fd60e10366d4d696497985bbec4ad97f9b79462e2fea0c,
    some 0x1bb82722844f690161c0d8bbb1cd95161b50cf17a41214fd660fafb194ccf374),
  (0xf792a479fc3f4b006bc0a43c4c60e7d3f356d33e56a6f2a22ca8ac6f024f0805,
    some 0x2cf6c4b0820a957e7aa0f16c4f1159824389a7cf44dc0729707faa7b91efac28),
  (0xdbea84bdbe79d31de5ff551604ff4e4e3a888a9e1fee97a1f696ea2385bed8b0,
    some 0x90bf7663bdc4e6d78332bfde61ad4e1cd57db66bc6d1a5ea8feb6377c0428204),
  (0xb1b927bbe4f17c53994f61929fc540bfdf36fabe2c44a77620ef8cb461a05820,
    some 0xf7c67d831900b7916f895052a0059974f3c6ef5e5d3a297603d3d3188fc69677),
  (0x840bf5343809468827fe4fced31324995ba6eb48219847dd627a7244cddd884d,
    some 0x2451e22327463a96200349fc8b71b56548c54faaf0a7bc7d15529aa8603c4d8c),
  (0xe5fae193159084f8528ffa90342792029cff2f1d3e816df2ea4d6f488f751ac6,
    some 0xb83c1c2c9af899a6371769e1c6de7227a234f115b608559be303c65fde028566),
  (0x33d81c3daac368d14470db3c04b2b8970860e1c0e5ff7fe25478ceb52b6420ac,
    some 0x850cc4d935ae0a8674ebf5ea92f38ede47e98e1f02e478e0c2a50ceb5ffab32a),
  (0xdb3ab30aeeb3407905cb4cd5376fa82b0d04be013fa13ec1874252629371b024,
    some 0x9c1e0d91dac37d1b380cc87b5daba9e4b1fe00284ee84c461e456d2926ecab8d),
  (0x94143d460ac5968e69950b84ff0c31708467c65ec9d6603a108e31f07b0aed31,
    some 0xae2892d821619350acf649d9b047175e04193dae025d3d5f529d65eb7b4b411b),
  (0xd199bee5edcd80195e58a03ff11d217efa4bd55796ae4da1a5233cda3a5640ce,
    some 0xfd3f35ae90e60e68bb9ee7415c8761319c6859e894542398558c13b02008fe19),
  (0x2001b659f6aa63038ebc76e9dc176a66951d74d7673d9098eedd9634316fbe37,
    some 0xa5f01a846dd6063ac66bfa48a879fe5b448bc9da3916cee23a43be4478306ec5),
  (0xf22d7a098199475a8e37abebfab1b57554124dbbaf249ae015721fd5bcf49cb,
    some 0x768255742da33703d1c25c7886929f283c4319245da1ec5403e485d7040bdb84),
  (0x13c8d40371df66fe1a8fd4efaa2987cba6b1351b438951b8bbd7d86a52f2654e,
    some 0x3e05cb92b89ba11163eae1939a0c4a15b5d0166d2729e60d1712e33e378dc4d1),
  (0x9ee7121ce457b0c95449a7c47a91a300d867c95108b19ef361f8ec42ef9937d0,
    some 0x68be75e98880850d0f2b25c6f942754d24d8fd1a75562e91c00e444bdb6e526a),
  (0xff9692bc153fdd34a3e639d20835531e1fa4ecab124acd020d04d3aa038f40f0,
    some 0x6d0c6bec6b0a25b6c94a9690c4ed47b8592c145daeadd0f803f6f8963a64d19a),
  (0x39967194978e4ca8f5847a20ffb23c6afe7b29b787adf79f428a7e06b701e32d,
    some 0x70c83f08b44ba5724d92c2eb9419c939608e92ac2e21a7bcbed4fcafa973816),
  (0x9b7734666085e78da3a0b58d3ed86ecbc4888ce7f4b338f9f7bc496b5ce4ae5b,
    some 0xcd11e957919ab1baa1c2a4623f859c2a5c25cc7d659283929513e274dd6c0dac),
  (0x60711e6d8febbde20bb683012ec65ca2fd2fbd4f528e7c88b2d0ebc1323a98a3,
    some 0xbb5f81c1db4efde192811e9c18fb0247bba27044120bd6040fdaf6dcdaf3f621),
  (0x844c870fd70e5e0839bbd92f8f66a7397f3b120dea4dd8f31014d4d93974eb7e,
    some 0xe86d3d213ce0751b1459ea7bb2b2d2487bfb4bc3778cb343cee44d4271f76cd2),
  (0x8dc6d60ce47cf022df5b6a2405fe27e827e8c9b4aa74bf9854429b4bf61461ef,
    some 0x6c3c6a9bc06d13367cce6f18949a42901bbd382fcdca8d14da78a4b25e659577),
  (0x569c0da55c00e50d3fa8a2fb8bfd6e2fed3f2e01b6fb2c83cdc77db61fca1085,
    some 0x1dc48780f65d7f1baf557b0eb4cdc417e2043a29b2c779b283eb45641a8dee89),
  (0x2b5339cc3c5a99cd3033aba14d2a1b84555b7b57b1e6c9c951ed8ccf0ae668,
    some 0xf13eb2a3b5286ce78ef10cc980fc2b1e94878c327e2b87c70416377404b14dfb),
  (0x15777a281223ea5514ec527f34aac11efef9ecf0191122b55c2c7d7ae7b65e35,
    some 0x91e2d4b313989225dff1c1dea3a2e3dcea12ec3b60022f3a2a60ac30ed5aafed),
  (0xca717f2ad06050149e714fa98e9cb3534a3e305d7aafcd12779e19f8cebf8a97,
    some 0x70540af1dd215a4839af145f2dd96e72ee86038d0923faeb51d40539355040a4),
  (0x94a3a867589ded60a4d4c39da744fd73fa9cd3d99386ea5d4109937093929ee6,
    some 0x1c22d7ae5b4cc23b514b2ab9707f58bd07983e00d77b97ca6887e66e27e7cf6c),
  (0x860972c9f748d4b8b7b8d51dc1dc7d837071e36594736378d26cd51d6fff0d78,
    some 0x50f91d9961dc9f24b60a3945127d446f59cf19dc0004c74355218e2a214c7677),
  (0xaec30bb522ea06530a4c825d27a8642d2e54de040019594755fd88f254189b51,
    some 0x5c1dc63f9292de085a39bb0737a0b5366349725df6689a15831e2c1eb95cf854),
  (0x6416e00254cad57f9c8f0da2900ba58381c9fa956905906b58182bb65bd19569,
    some 0x729d9c6000029fb5f61b5f6ae1a23f77c186693585aab23bd9e18d20c0e8ee64),
  (0xb08d3b0ff2a61219c9fe4f6cc8558a0d2b164d481c18314bc8e14d9a8e2f6de,
    some 0x615f38e01207114ff1861a43c5ebe1db8ab232c44ae354752c65e49e540e3563),
  (0x527b6941229c941541a7dd9976accb0b824821e92a8f0d9cb6a73e9a160724be,
    some 0xfcefe7d2fcbda8097a3716a7251e36efdb713cb1eee281bb5c8abdcb6230e1b1),
  (0x557d86da23a0258e425f93b98d3ea3ab1b0de042fff9d114ad74066c3c184d83,
    some 0xd162f4a771930b30b3b897386a5e94302065d4b187f4521023708bbf9b6bdc57),
  (0x9c4356850d5094534e637566f6c726ba8fcb613037f678a716d442bc95fbac4,
    some 0xfa631c4edff9cb1c88cbd69b6f188ff8701acf345655142187e3b89a7c84595f),
  (0xe2562e55d3b198e3ef63f1037c61348b42c40e1f21b203f3a426e3818644fa94,
    some 0x2252f429d4029c4a45e16765b14dea4fb90825346b92a9043423a099e9f1d93d),
  (0xb70adb31dd7be77e821726a8c664cffde80c3420546fff30135fd8a43eff556b,
    some 0x7310862502baf1b478ace1d3dc2f829b7921559049143abc8810b822c3260973),
  (0x1db801d65431ec73b70b3c81d7fe4835d28296b608eacdd0ecd12e8542f0027,
    some 0xc92a6397cfc740e02898c232eadd81aac13a16790db1e7e38c91c53bc53469e9),
  (0x197507bb87eaee76c33b94b7ce541d2199ae081c53a3b08a0b8ef0037f6ec721,
    some 0x21ab75b6cccaee67388f7e747d0e564d40bd67982c750cf4f7f07f585e0df311),
  (0x2cd1272169720c1e819ae5b352bf34ff15c7b194636531ae3f73f7c0d8701b57,
    some 0x5ce7e86a70c7072af7e4479f884e89b27ccc3863e312c79c0f6619e7c439f074),
  (0xdee8a576a51dbadf2e2ef4d898ea6daa4f2109b874c74b2c3f63d0ac5a0d0d6e,
    some 0x3b05b489c04c2187b4a9d7a1367e2b39fac23afaa3bd3c0836a3c6177dc45856),
  (0x2b0b225eab80369ac2b1af015fb308feeadd38131df1858932b1961560e0a8b,
    some 0x7ed493556a8f1396d627fe6973f99460d03b4b39175d3c741ef5d9f53cae4cec),
  (0xa341a365f2dd635e68534f13ce12049c7966cbd672fa3cb3f62e1fc38906e48f,
    some 0xc0ddacbd87b975ce779ed42524ee1d9931bf9b5ec1212b1b87b7c083db73cbd4),
  (0x76970b97d9207ace885b30126597e78de86b06ef2b83939f44f623fa37173d83,
    some 0x87ad1ee68b8526ae77432367a5daedaa6a50950e6e58a95a50eb1170a87c580),
  (0x981f3aee604bcbd7b5158a7cf47e16faf24521b7ba69fc91a1ef624738016a21,
    some 0xecad9d528192c33d844a817582166d07172809974b51248ef3b3ffe2b817b6fa),
  (0xd33b8637be3c994354670f7704b974108b2d048151604b5b642ec0f8bf8a52db,
    some 0xdb783adceedc155300f48ea5bd331cfb7bd8fdc5e96c6b11b3a15bdb46651f79),
  (0xb67714fcead854f4d4c22727fc0287360fa00c21c22e80006f588dc5dfe27f80,
    some 0x5273c94931f5b43b3fddca7e15a73472857088a92beba2c95364be6e8c20c74),
  (0xe936539a7df5fc25c059320acf3a12c9979af7af882b889a707126ea0eace6bd,
    some 0xde0c02b305b43882a8ce56d9a304fba1a06f347de0299f1822ae51c45788bb2d),
  (0xecd54bdd5f2d838db6dee30c756c9806bd8ecc5f5dee2bdac0cdfc84e9c0e86,
    some 0xf7060c7095b0a913f4aa3dec9d992e9575ebd4fb5e0c78bf8f4f50a739be8eb3),
  (0x23b5c86e7068617c26aaede8689f6a954ec64583db3d7e0a74c0936453fbca38,
    some 0x33f2da73028226028897cea817c0a01fcd9abd54702d315eb8cfd6966109d46e),
  (0xa41b8e11f15e7cd600f561c52dea0cc66e95a8b8e5b4bfb5ce5b98705e7635b6,
    some 0x85325ff9903d466da37c3113a60e1e00fe555bd782b6f2fd2ae9fcb44a4c9004),
  (0xe918ab9d2c9cbcdace2f68930376c22eb8ffb01541170de1443a9c0b22ec86f2,
    some 0x84f346c5c5f330740a3de736de5163cc8b858dec135c46172ebd15679c1170ca),
  (0x1f920a0a5493e54f7f0aa38908d72884ee541ac299d2840ce6a42c0d22eeb0bb,
    some 0x8abbb205208a2911dbbfa33e5e94aa15d430c510af215dbd2a48fcbb30143742),
  (0x867ac1edfaebffebb462b9334be3f46f9e16e4e2546670de2b6329d78273107d,
    some 0x718af586b76e13a633189294fea60f2a1b48e1a4ab0d9646c3190f7c66e50d8f),
  (0x652448f8abd4ba18764ead490ac6b489bee735faeba7368138520e0e8452fe74,
    some 0xbd4cc188c69c6f8e5ac86965c65cf562b502dd7b98ed9b54709f92d25c690f74),
  (0x1b35aac1ea24fec1528f0f38e1da21f3ce60f896a171eb4674fd54d4e6e072c0,
    some 0xfe2650879006eba632896291d99138a196bd7a3b6bef34f9e85aa08cfd1e1e26),
  (0x4dc90360e6a2876083f187f3ffb3feee5c347841fbef83e0cba8bad9f6523d36,
    some 0x34d1dfc055ab8a6b9105c34d474a6cba02cba5965ab0e90fc30cc9e81de00b7f),
  (0xd64bedd770115aee5ba8a0577990a7dbd8b6fda15584132b6cfed17604190f26,
    some 0x4b5528d391655423d32797139a862fc62f4cef428fab6c1aa29d56d218138709),
  (0xce33c3ae098e194aaf5c5df9e30811bc0c7592e465d1c96159de36691a5a1265,
    some 0xb27090b7629536d502acd56365f06e90c380f5d683837d9e79d8066cff72bd49),
  (0xe49527104a6dfe145a93a241555af48b13236ab5200713c20c8d9fe3df8a001c,
    some 0xb00df8f4a7a79067c177b99e526b8c8355c0f9587eddc597867feba3d31fed10),
  (0xc78535653fe1f65823a9f553e51eebc39b87a6d04a1a79df452c7739d7e50d5f,
    some 0x758008bf43633aa80818728d5b8d753efdbf3df67222d0b60521225b1c182353),
  (0xdc6ff8606a89255398986e1545a4edd87789dcdce1039891aba3144eb1638d49,
    some 0x7f874347ce8a359d84283f250be0351e9ca7ad7826ee6d80653a361f9b850af5),
  (0x8a93f16e1b0223af79c6c8c93d88c46e1ef2c5474d0b3606026b8e157385187e,
    some 0x2a194e5b6298a3c8bf25d226afe4d30f884fdfca9dbfbae3bee8adc5a62a530e),
  (0x9b7992df133f447f71a83861c9083a0eb4b57a6a270fa6b14c58cd1fa7552c7e,
    some 0xc7ce009b4be5de9735a6c2b354d00fbf3c1633770b4bc3af6e0b0ffdd596b50c),
  (0xed31f40d405010f51da05f5989d408623cf8a2ddbb9066c25b0588084c3089e4,
    some 0xaf68fc9b7387a810f0ea288b9e98befca1411c41d6725085109c5febd77a268b),
  (0x19b22b3942388afc1f32d4cc42f0adbb17b2ac973a795fdc90d4f2c232879301,
    some 0x99b092455957ccc10fb160e0e16a58a0602994993237e1522f93a364c45b6311),
  (0x1d6432c2da8f757222036a50616ea28828523cd971cfb5a82f1b2341c6a59423,
    some 0xe531526e7bb34216ef2b640e088e2bdd2aa1a6d4e95e4be0319186b6ad7c7c2e),
  (0x63c1573f8516f133d55f059a7c3fde79c1f0ca62d0e008ce68d6c4301a3616e7,
    some 0xfb5edcdf4a00eeb881d382aba0801ed39b8932e106a6ee03633ae55c156e8a72),
  (0xd5334843bd6d76c5b5a5fa6a0b22caa8d0d10fc72211528034cbb8cb1054a18f,
    some 0x62c7b4b5c40013fe5aaab64168dc5b05f7f5e551ee092560d1319b6b895faef8),
  (0xbb3827fb22788337ae1df75820c10dba1d0a02a01923505ce4f2c300a9fd19d1,
    some 0xf10134671de373ee7a98c27e438b9fdf3e2b5c4a6e06ef66193c9a3ebbdd96eb),
  (0x66db9e23da9f2357bf6318722ea787cd09ff5ee3c6f23f7c86d0b1ee34bc9187,
    some 0xdce4d2903d8debee56cdd66905fa952c5ddb8bd2418c6bcda1dc9c6a473602b0),
  (0xdbd551b4f4b064658c6ae01f2bc16c90bd7b4bb15f3911fa975d488a3d23946c,
    some 0x78cc8ecab967d37cd6b2da4cb5e9a0ab77b3c178f3e8e2de8ef8578a28f6564f),
  (0xfd07cbc6b6fac24360269e3fb3ac3d310bb1e63da2474e7069b50aa45294a806,
    some 0x9e939eadd68cea5832b8b6b77cb2a2b527b141985d88d766fb17875e3e8a2080),
  (0x8cfe79c35d9c37ade49de818e690ea5a4e91ab2da9c49d78caf19deb13b78d0c,
    some 0xe80835b2aa686d157f2a33e26e0acea88149acfcb2a29aecc27a12cf23766fad),
  (0x86e69eca4123bd8ed48c0fc92b0ee76ab6b5c7918e97587652c8622fdb04255b,
    some 0x34ff9095a7ac1a5ff9e3c459a0a8f8c5584d8c312060232c08f8daaddb0a8e3),
  (0xd9b4f2cfff8d2a8578266507be4f45f9502a09fb7d44db29a657839714796ade,
    some 0x60e22764990a0b794c7d1de3b54202824dfa35a9f84aa8477041e667d4182514),
  (0x47f6f2f5e6c3aa727042bc51c1d8cde6b9da044815ca4441951e73f796463a37,
    some 0xe463b1f3be7bcf0121351bfc988da8ee9a3c81359a1d2f522819a1e5548a2a29),
  (0xade49f68d6fd6e487cf915068fbc4ec88a0ad4d0563220ac502786e1aeb704fc,
    some 0xeda39ec07448eb34008e524710aa5e618665d873d8511ea74c867aa4b3dfcb80),
  (0x354a8d416df2b76ea671bd2d2a75307b9f9fa39d760f7fbd7f5e8ddf395a08b7,
    some 0xed5224bd4a473b716dcdfa4d54fa885a648f186aeccf5eb66f961506c33e2f78),
  (0xade8d83bbae2c4b420a9ce77a4eafde582547186f02ced7e69c4f2b9dce10d82,
    some 0x2a761a7dc5e8a55deabce2d7b0c20d12518c1d2f9114ed21f163e41cff7d39e9),
  (0xd5d7222416c8d775e5be42e1edfca5f4450acba72abec0b9a8e3fb4fb3638fc8,
    some 0x8b6a8d24ccb7d31a2286e7136b78a4b2223ea105aa37c76335a599cd42d08139),
  (0x6fb28815a0ecc97bf4a050d191cffbd517fb249ef252208a553ff491df4873ca,
    some 0xca42f919f1df91da1a791fe4b2cd9c6746ab246901643f22a4e0b23baaf9dd52),
  (0xdc8ccc03200a59d75dabc5dc646054194dfa1fb9262aefbee3773e8f066b4080,
    some 0x71bd58e350d2b45c8397e102c7bd224d01f57ed1d0d4d2fe28dd1757897fcc40),
  (0x7cf785896872de292ef8d04c9a4bd6752b0283b334aeeed0926d62c60f84c63b,
    some 0x7a305781e019ba6b148ba056630113ef1830fdaa5d0ba86fc05caa250a5dd834),
  (0x5cb0c9f432b28592337cb60e8fd2e4433de1e82146b736c25e8507e2c732f8b2,
    some 0x59b7f9fa755e393a86f41d14fe1f4355255e0c02aa59eecbe0f8d5cb2bbce45c),
  (0xcc1308f867f37f966586c3aed97b75f5e0a4207c34ac1b6244031de9dc378b3c,
    some 0x8dce13d16b53f0ed2e56d71d776aee9f30a72d0bbeab3ff635acd0f51d1fef11),
  (0x28cd61f487b08fe5c086fcd582f7ef4d038b3b1eac5dc027ce3ea940a702f395,
    some 0x19a1b2ea3e2f9d1b03efa572c8bfd71d2e19827d8139cbcf71d8e330fc463a08),
  (0xf488531013396f122c6380fa9bcf529a4a1a8030f0ee0fd7f086881f3b47296c,
    some 0xc85eaf6bfea3313244ba71523b1bb1e4897b08dd97961a63439b7ada636f1583),
  (0x6fdf88045c35210fba115a99e7e1f0c22168bbd4e3696a2a7b1c88453ed23522,
    some 0x88b56f437405dd5c8a57c4f2e77b944b210995e5c13adc843e442b389724f6b9),
  (0x850f025e53a726ece94569ab7f3110ef61eebe11db48605146ce512f7b9cc1d6,
    some 0x9780d7cb0408d9bf2c9b149e3506e18ff42307ceb5d19b896238c9c6a7fbaf6f),
  (0x50c599c6c7eed04de4557b70629938a5efe449553afd480ac0f9ae995d344f65,
    some 0x9ebf94382972af6bff3a9a57e24b68bcc508cedad241509f342b151e7db2f71b),
  (0xba29075feeb1944a203f9f27aaec6440ce8936542cda770d1ac48849547da262,
    some 0x3d1cfb1c8ece579815a1bcf52cba51fe6d41c997cff3edef46f3b1a0ce8e2d19),
  (0x24af2cf595bb5989820036d1cf891744291d712a3b49a2bab3287a5931cdc57,
    some 0x44565f3dd57f21a2781d6b23391b8fbcef09d46ca234cf171d9dc7248d06418f),
  (0x15d30e1cde739d10772cc7d6bbc109f5a3e23e6a66fd3a77e98839167464fea3, none),
  (0x70f9f0dccfa3e73c342b7584f48bfe7576b17844686138033787e8a7e6462e86,
    some 0x50d5089b5a74ed3712292c35b44e806bb3cc8e35d3490c682bc028992692b755),
  (0x798ae92376ef80df046f55128ac898e9dd2bbcd8795657eb9ce04d680efd3ecc, none),
  (0x49a53a0c31d207a80c2079095835645344f838316e636a8aaeabd43754edf626,
    some 0xf614d124698cbf302b12648f67e35b94ec9aae699ce2ac4ac30c2f97ae77b87b),
  (0x7684c61da59f0fe2930db6a3ca287d40264e03477ef83d8f00444cce3d0a9490,
    some 0x9abb42813cf5a6c3895e188e6f88e3fb1b0252a9522933efa0a862052b52435a),
  (0x47bffd0e5dec41b22284243bd74d6439421f82331caa2ab1e3fe7f21f797d8c,
    some 0x87ce2f8a06f747d4003311b4ab65f2b460dd06105f0ef62054a6ad6f8829c3d4),
  (0x9c071dff3bf3b99e0115bb6b03cd10d03c66d5c419846605d1c9fe0c094df90a, none),
  (0x73b144be9ca33547c5024e2b48f1d0d01e8a32a4680094cb4e388a350f15cc,
    some 0xea5c21296b269c7f78010ff702bac9e39084c3046566224647ee7ec45cd82673),
  (0x5732107a973bb414651d1438e0bcfc9ef6e5f478c2867afd7e0a7c9288f79536, none),
  (0x1f16a3c84b9282411b8e811a7cce72cfe968d1f1b92d684a8fb7d274a38530d9,
    some 0x73542a52fad68cd34fc84a1c1ed2bcac6cff9ce801c0dd7cc63de1dd66c67afa),
  (0xe40fffc9305a96c09e424d5085af7c67f4e7d7869677b7bd0a87aca7c96dabca, none),
  (0x872d0466917c9f912f2300c1fc71036b03cc87b37254ccdb57aca31f3c2e4da9,
    some 0x998171cbbf98c642cb1f5c2a3f60694f6779727d4546cbb4053aa70e7f6074ca),
  (0x2fa2e6f886d4b979181be5adb130a17715b8c07ace29d4eb98f1cb2e7848af4c, none),
  (0xe47dabbbeeb549be40deed072d89cee310e2af638303050b255a11a80e01bdfd,
    some 0xcdaf9041f8677dd58b4c901692ddecd1fbd06cef1804c17c1715eabb687e6b17),
  (0x50a221b2f178b80926755e83ed8b0e6aa965d6c9c2648bd7652d018a857abffa,
    some 0x20b40cbe9c02da36ccf89eebbf40dc8b11816ab08dd182bd3e27829b36d2ce85),
  (0x3f903a9623f3a297a25a97efae6b1f15f72d2d5190278885076b5ffb16a725b9,
    some 0x2887892dfbe539056f57c113b65b33b535c84248680d0e7eb6796ae6a4f68e94),
  (0x4def9248e6dff302f51cd7aac90def761ee0913e6e30a901726eee5d2af0bd08, none),
  (0xd70ec55e56ad99e96e757647b163998380d2135314ec6ba5669654e2cb701c9a,
    some 0x9b450142e057cc2ea1d6b61937cf4a584a2eafaa291c694b3c7bac795ef7ca9),
  (0x26798f69c77aecbb9dc47679fa3a5a3b42048664b0936ed1f7d3ceaaa2aef5db,
    some 0xc952d7109aad33a36e07a0e6bce7880afcfd78602a773b5787c582b3b65b09bb),
  (0xe7d985dbf677a15ded43ff92e325f7a8728474d593951ab233daba58a0dfa191, none),
  (0xcac8ee56873c714232599d2d5b3ccff13dc0eed19dc6ffe6958599909137da2e,
    some 0x6026c28add89ad9101f0cd66ea6b5fe7cc27d7617d3c1e35937151a7e6c61230),
  (0xc95db58f46986400260fb47138c8cc7e07cd67d2adb88e746a72d00c58deaebb,
    some 0x20884e7355c4e996e10beeed18d0eb59a8ab9efe966fcbf59f6ce3634ccd7919),
  (0x2a4bd615dcb92eab8749fca442567a011047d914ab262e9a230a75263a88abd2,
    some 0x390922097e24cea7866575ce321f6a23d5bdb03a1fb0ad4ac7ba882037b8e613),
  (0x88246dec0a2f5c1781c111b275131f55b126fd8e265fdde8ac3989cb1274622c, none),
  (0x907e6ca0df806efa454760a45d6531e8911524be961db28481f68854ccaa76f4, none),
  (0x178d74f76eaa73bca5b6eb2002f00e70451125257f4bbb21afc676f885d66ae,
    some 0x597e6e102fb22978219b5924de46902f6abf9a6e5a04e65a4c56cae2bc05333),
  (0x42344c89ce9fa6d61174787e0eba3437b9930069b36e38fa81717f029a015e00,
    some 0xc83088e6b3791f3e7aa83a7d45619301350a1989d41646230416e778ab0950c4),
  (0xa62fa653dd6625350083b4e38393ec4ba6d7f9d8d81c7769e8759cd0f41331af,
    some 0x430666e4307db4c9024466cc9d9d6bb621b66e1c18c902e9d45a91b9b703b168),
  (0xb7d7dfd2dd60ebc633df4932f165679c28f925b5ac1c11cae367c92589a57d92, none),
  (0x75a74a2e990e1651dddec1e928034d4da24fb8884096c0933e6136f675561c39, none),
  (0xac8358ff17e0d817bfeb4ef3654e06479b4046f4105d204bcdc996a0e620f8bd,
    some 0x1af47f3c8bf1bc3299444ce6558889c8d92745da4d982d3a7efbf7fb5d46875),
  (0x679cb473dc12a2918c3c3827168fd9e524ccf4f868b3fd2191d09eb1e500121a,
    some 0x3792680c098ba165f0fefedd0b4db31ab7441fd42db2c5ad59800f83d7de3d26),
  (0xdf411aa363e4786d551681a55d89e6d7ac119e4a3083e8c79c9a718d8619b3bd, none),
  (0xea1b53c2aa6f71a051e448f87c88a9095ea873028a94bd4b2ee9af90bcb1eac4,
    some 0x962cf5d9838fb9fc8dc74d7f74df049f7d85abfe39fc5339cec6714d59376a7a),
  (0xede379c8816bce900ddeab2f33b9113929dfc9242b63cba9a67dc5f5be8bad6d, none),
  (0x6321e085fdeb048016841b6a9ed4eabbc689e49d289e4aaab528e4ef1543312d,
    some 0x3e1aad2501702f34893c4661ef8fd3dba7dd179e51396fc675d4b6dd99347fe4),
  (0x39b0150b6e95f57baa07963f4bfa9ced1c26ecc4c51cd8aeb46e2cad878df313, none),
  (0x2e0152ce0d9c1a5ddacf15a2f517b25627330c683614735674dcbed624e65ae0,
    some 0x17f6a184c52be2960574258b00dc41b7d17945c0e4f265e240e90eef0b7b42f6),
  (0x61ac483b86acef279cc960de2414b52d100d00429d1bef1596a5a1e1986ed89c,
    some 0x462d7a741aaf1d2fdd617d6cd96e093046c39d7bf1b53ddef68827f59ed5e222),
  (0x362429d6a8eb7152c8a25e4a154ab24d80b0401e5fe0a20c9a901fc4628f1cc1,
    some 0x897c5346bbea118021d1db8ddeca17078d61494255d60d903501ab0d96dbdfc8),
  (0x4a4306f1fe4fe56cf8390f421fab831d29aa38e749b6fbe2e1011e229d1c4dc0,
    some 0xbd1ab3a4b261496084afd99fadfb56f19c896d5f05c139a72e1e1fcdbb07be70),
  (0xfcf1523b82f29c2de448f6d989ac55b2df8473bf03b0568f47ba0ecb0bdd77af, none),
  (0x490c1ce453ca3fd42de1dd36b26e293a111b987c7deccac16fb161186ca125a,
    some 0x3855482b858ff0489054da3a871a0829ec1abe06156a9c76d133a74243635ec5),
  (0x2e293dde18e6e71e43395520c05773ea44bad530ab495d611458e2ef46a7707b, none),
  (0xb06e1d39763a83a57fb67b677d4b44e12d71299c9b00785b1112809177da5c59, none),
  (0xb4a04407ebd4b6a776a7bcf22e2391ef82fcb38caa323d9d88f6b064243137c6,
    some 0x3744b45e624b5e48ff3377f3c07d5a48a62ed058e0e7960d23aeab1b85b0fbd3),
  (0x4287ac902cd67c7e2ad5bf1085a4583c2156251d39355ae4d1eab8ae366e1da1, none),
  (0xba3a1732d8f416c8d30c483abba55c6650234c26cc68ee2b4b5b9dbe94eac59a, none),
  (0x37775d936f164f8a84a47a9fb920758d15245f8c54c93178d1c4b5cafe4aa748, none),
  (0xa4a58801d8546d2f02a4050f921dab5916a5a5dd44176f76551f3edbafa49fab,
    some 0x55a917ba6b5d45d33ea48131d175456e0b896ca85247cc49de12458f2b48d505),
  (0x370e8f0214178e23448c3e2d2bf282e330be2f2967a412792452a0383df0b62f, none),
  (0x50cf9a814a661783423db02e4a5e06e785ff9a267cc04fa814022a9de2273796,
    some 0xbd812c5cc435aadb43c291fb04112777d6607f416d48ecca063d66c94d240d4e),
  (0x15ed51763216385857d89c815309ebe43b35f69a834afdb5cb1b2cd34ffcf80a, none),
  (0x9f0934630df8621d6a3c6c02ff916caccb0616bde61bfadbe8e0e5aed2afa375, none),
  (0x7e719a2b2ba07ae6d322194e523da6eea7ede79a3be1ffb3fc12bdee43de1167, none),
  (0x6041ba759eb9a87f0bf848fa65af818d3fcfffaa0c80943b90c7449163936b3e, none),
  (0xa6a11f381b330e0eceead13193ca089f4cdce3ed7c19bb361cec09cf272e6dea, none),
  (0xf46c2f33e3c1237340aa05dacbfd10f83f8c6aef5265ffc24313453af50d9f95, none),
  (0xddae855b43b0804eef5626ba19b0872ade9f6db236626d5f6b712d8485de4f93, none),
  (0xaa04eb321d85a9b24fb59178442a350eebd6e42eff6a4f491def6749dfde2371,
    some 0xfd05caa0b09322293962fd72bda2746b5e446ee176ad48f275c84601549d0a70),
  (0x6a8bd9dc42a657e933a8d775dabd30e245c28ab041084aea3e3b55e7ea2d42c1,
    some 0xc4bfc90afac57bab865c528292620be06399835cf740234f93a38c08c4183d58),
  (0x5662cb12d538dbfabb68ab6d4c22a1c04a1dc88f8fc4a4d327596eeaa32e1759,
    some 0x4ea0daa54381eccfd69f5004b8e68145b23b787b79e16914301dbd648ef0140d),
  (0x56f7b87bfab14a26476110ba5c5de226fba2bb55be1f980d57a59324e9450861, none),
  (0xc2b84b6c7a201f0101162c4c3ee483b1fe5c431791db76941874b5ed2f7ee473,
    some 0xa81fda848da8931d765c3e46d63d4ac5b8287b5c138d74ee6bf6b9ba2b4fc2c7),
  (0x4da71139102cb68a454ec12917859e2992226a7bec363ed6234efd1d595644e6,
    some 0xf729185a464fc7e3b694afe6c82a7b1619f198b8ee901a92472cede7ee9286ef),
  (0x2c37d19c7cafccff4a1fae28df4e4a4e3d3a4fc9ae5f995d487c1f2447b64cc8,
    some 0x50e04e127d5f199fb12b94118d5a1ac322cb3bdd23a79323113eae5d45368d76),
  (0x146934b96538b882e2bac33d25141c7cb701e0a3380e3607d45278ae43bcfadd, none),
  (0x2b7438e79a4f5a2430c8c84dd1f2fa7082d83b781514c1720c9f00cbed3b852f,
    some 0xa032eb0660f3d2a6747dfec94e068b6787b6d2dd4450f2c669c86e2770df6400),
  (0x4149f77950d05b8192def7b6eff59801d2a0566c9ba12cb48d1a7d1728e28953,
    some 0xa59aa1b51f8e8da51bb8549d8fa642f24b9f7719a560ef6e35d38af4569e09db),
  (0xac6752ce2f6319254eb10cb31a6bb274e610b39437e181f929be340d4c1f8c72,
    some 0xa70d161b901af290724c7685d315050f176233c833142e9b7bdfc97473b1107f),
  (0xec229f70507f0ca38f3f7af43488b62d19571c14a2449ee3b03d20f7eccced8f,
    some 0x5373712ab93710af412c924beee6a4eb7ddf72eb877d13040c2778b10313078e),
  (0x3e8fd2be29758dc10914ca0465b146ec7611762585f8ae1be6a962946c693815,
    some 0xe247492b8e5866e6ee18fd530324052531ee190c1e06808627fab69d0c9d513c),
  (0xe015f29fb3a42841b8433e747cb4e0022325624e5613671d29ede5030e5091cf,
    some 0x634b7366c6e4bebd20c32ab165a2f4abb15ba0209b9ae7c45c2ad58ea9c77354),
  (0x8a1f096fe8ba9a6ce81aaeec7537737c5b92eaa6051e1e4245c7fa742a924fb4,
    some 0xef00db3e25dbe969ade09388984cc75fe0aa0e5fe7c00046fb16334da3cd2988),
  (0x19b813c81558c2172c424ebebd74d5187c64a8870a3fa493196d20bd2985b56,
    some 0xeac1563bcfd888de09fc7fcbe871bc562c4b70f1240a8846a900c66fbd2675ca),
  (0x8474e018b6ac5b589f4749e1b38d6adc60a22c9eddd99afdd8e8d6044a4d4e98, none),
  (0x8df6afc453659936eaa14ccfa4cbd75a49199a5a40838876176e6da39d169bc2,
    some 0xff5caf8da8deb38d5833f1ef0047eaf5331a5e49802cb29843c99257ffab9b9e),
  (0xd8d4c3fb404a84f9a0146faf112eb5f7b8482cd2d86a4736dfdb78f4bd319ba9, none),
  (0x4026935e27333c9997ed5080700d1fe587b0a10e52f3668cb1ff2e53bef165a0, none),
  (0xe91116989d2c29ba1c402a42220bb6afafd7a1d89c0f7cb6f1415f6b30d72782,
    some 0xb9431bd34b02aced50f20c6257e46301867c5a638cdf4f97d6beaabeb0b9d37b),
  (0x9b5ce7f66fb114a71e108c251df1485ab6f06b1e5babf4062feaeef8390f74b, none),
  (0x39823a814982236ee6a11487982e893d758c2a2220c8b90ddb245fcf7db25e13, none),
  (0x3724c9e4be4072950bfe2e6f6cc5d9a65ba15ecd671edff008bb8977b40d58e3,
    some 0xf5f3756d498626e2c95941ce03d19247a0006ea31ba8a9c5708e9a6ed184b3a8),
  (0xc693b7be868b7aafb474c7db3a3828e044558002902955a4dbc8591b409d3d1b, none),
  (0x5b0807dfc13b599d28fc2aa490479cde20ec29a0f79d1fa41ba2d44364eb164d,
    some 0xc4e0783865ffdb796c466718af80a7e0cb988f8f821b4d84e09287ee3f8f03f5),
  (0x1b7ae9164f9be251eac12e6b7c1ba3e2ee99693aa9bc790e19af19181d90cd41,
    some 0xcd2cac7dd8ccf1646e4a621d7a299a9e0f2fe2639638044e8577fa0f5d91f425),
  (0x98455235999e1e64ebb7e53853d08ecc54f26431c221315dc79c2200f1b28e62,
    some 0x352aa3669ea4a9afc9b01dbf934cf495b6147d51ebfd599bf2bc91057f6f6211),
  (0x5ca4695b3a293d70d533ec2967309a049b77e935e713bf016bf8d3aa8e2e8691,
    some 0x95fbbe8eda94faded0d0aea5cda033efc6d22a7200f904ca79fb75617324e8af),
  (0x8e3fa477123b584f2d50b6f126ada57e27a8f2868ca91f8fd9ce85a1f920cf12, none),
  (0x3b49c33d536bdb2e909079c762d2053f34997113063cf72adcab7d7ddec9faa9,
    some 0x1f2ec02e6466b6d8c72f9d7f5d8ecd7033ab03d07baaaa43ce78c20480d033e3),
  (0x62c33e0b9150e0608b29448fb56bcef22513931a622e8631b498ae54b22262a2, none),
  (0x98706a34365fc35f0bf58006b8086053e00baca29dff996227401c8ccd9179d7, none),
  (0x754e3f3b8b39783ae1d98f7bed4a33a9cb83a2dcf3dd96af1ed15030279b19e9, none),
  (0x3c068fd60f94049af681c73e180ffcf374dc1a14a9af44c5f810584e384308e0,
    some 0x8458ac5ebc5a27d0fb0bcad02e3c633a74b7b3f75d9026b0baee96d5a86e6447),
  (0x43ad50f41bfa633e57f69e14ee4d5a7bbc3bf51c9146b7eb88fdb7222c3eb6f3,
    some 0x6e7ac2b4002d16383bbb76e19c46d11e4943d406572749ca6437226f5ed5e0af),
  (0x66b7745de248b97277a5615ff0bb462cf6e3c3e46ff057f7cce290d68ec3315a, none),
  (0x68723255cb589f934be2b1545a295f0260eea2b5de3a4a9e94f804ebd5eb2ac4, none),
  (0x75bce0217ca8b8c758150ce70761406c45bd0d802840e0d7d93d29a8a0b8b164,
    some 0x3ef132cf7d12bdc105260187684881700060e59cdd9bfb36f8b013e06b3db0),
  (0x5e17c94bd2c6d7b61037cf67c54c31856932b27be78c6d84d13c0df435b0e418,
    some 0x11852c88e53cf13c381f4f44770421a8edeb1a2aa5ce0ab2a4bac0e9828dfd5e),
  (0x69b6343cd46e3261cbfba536047eac826a6e5b069d0511ed854203a27dc2d6ad, none),
  (0x1d3fe586613e4a9815c3ccdffefedf1f536fdfc332940ccc5ee0db4890ef4566,
    some 0xe913bd3cc40444a7a62bd51a89b61dc8310e47f94c8f56737a7166af88bcf547),
  (0xf839838e5ea18c0c3efc4d8a88787af906a6abca84884bcf498e6353b96e4ae4, none),
  (0x2d5c87588d26f9c1cabb2ad6143c9145ca8a25067d0d0a1d1a941ac54f1e9ea8, none),
  (0xc9633d6252ea9df0eda9df6c2913cead0ac51d4cd58e74f5da5e89ea5d228b0e, none),
  (0xe271ab4ebd11fff0ec68a819b151c9ad16b2402b2fae6c2220fdd66672bd4063, none),
  (0xd36996ae84fdc0707b26792cdfab4100a637ffa1177d4a6e9b004ce2e8e408ee, none),
  (0x82f4035a2f943ba8d23b2fd98a9fa96b84620ffd6fb6ac5d80d2d89c955d0442, none),
  (0xd9e9badf10498fba162eb6b719bde60c1168f5c29a9c252fc5359bc67bb0daab,
    some 0xd58e4dbb39976789cac864c457839241a9600925ae5f118e90b5111e6ee5f145),
  (0x67b0b964a2f26f16045e777230c8030b954ce902aad8a9d72f137f3ec973617f,
    some 0x8030a1ab44fe730e18afc3f42dd9abe34c9266904e5b9faf883c32b833814b17),
  (0x5bafce2495f2fa0e74c1c0d3eb547c30a3bdb10201f9724e370643cdd2e06c4d, none),
  (0xeaa21ee4d3193ebfd4ff0cd3a3850906f761b0696a90c5a245d1acae275021eb,
    some 0x9848ac3b1358d674d92dec61ab818763f5e3f09c18e8545572f1dfaeb4154bca),
  (0x4b2f02323795cceff4fae57277f199eaaf613c32c04e08d2ffa33e825dc160b1,
    some 0x2597e05ab9ad7bab6c6042dc8b0a08020fc46a590057260d1343acbf9a9dc29),
  (0x4dfeeeb6f36c1a9ca52e3abae72aff21f3f5cfc1f1763a5463cd3f9419518c9b, none),
  (0x9054207d23fdd08ad96b38a135a128fb3ef816f72a9d5f1f52bdfd118ba86b4e, none),
  (0x9cfcb3c3101bca8208a3879277013a90fde33d7e52688c097ada6a913a3e7f3b,
    some 0xfab655ddb77e8b9989c2effc19e228c0c72121537ebd7ec3c6a7e4d048847d2b),
  (0xafd086d090b268755bdf504137173c8ccc46493d1d4201e9916a757f7b00dc70, none),
  (0xa5539e4c2a0cea6c4ede3f6173797a79cf2787f06f7e96e45e56c87a2e153893, none),
  (0x18338c0dbb8c4b2cc1c0beac6fe6aba94372e897eff057934f4f1ab15a411201, none),
  (0xfbd1ede4f87d76496c35e8768d3cc737302aacce3580b0b9925bbae37021f505, none),
  (0xe87d436bed4bff39a438dbc5e0f2a0ab3c426665c18963a027a08bf1b5481af2, none),
  (0x6ef473b5991356ad1b67f3fac06178cedf101127229b3473a62ebee5a858903e,
    some 0xc9dec5ff3cfd2b46ca46f2e1e2462aaf8500d13eaedffa5622486431a4defc0e),
  (0x98878284e0dad18c26ef85a11e64f28c050b597a75718c02f4b113be0d7f4566, none),
  (0x54872f7c6339d01480fd341fd5d2488dfd73172d95ed1155432e6e89d3398c0,
    some 0xb652eafe317f809ebd0d0babb231eba646f4bf5b1c3e02f7e018073689be34d1),
  (0xaeafae58242a90e531e26ad3754e9a553b88d37d07cae8e35fa4185aaeb6f158, none),
  (0x9b3f6216667833ff2a4bbcd12ac27afe4a51a2d3b07eb0e78d312eca1f7159a1, none),
  (0xf6c614511660dd458e525fbfb354aeb10fcf1e624c2f26086ba3729f78386cc0, none),
  (0x2fa523c29a33f7934f4e62b53aef395863ff174d933527da8937c26b6a5c9c60, none),
  (0x60610490a84968ba2933cdf68cdfad9b184ba2853935fd774bef4e64377ba489, none),
  (0x3b9e1fd3f452018f0e9c2ee69240a880ee147a50256c489c9338d92cacd255c2, none)]

end ElasticElgamal.Curves
