import glob,os
os.chdir('/verif/lean')
fs=[f[:-5].replace('/','.') for f in glob.glob('Verif/**/*.lean',recursive=True)]
order=['Model','Spec','Proof','Props','Check']
fs.sort(key=lambda f:(order.index(f.split('.')[1]),f))
open('Verif.lean','w').write(''.join(f'import {f}\n' for f in fs))
