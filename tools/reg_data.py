M=[]
R=[]
imports=['Verif.Props.ErrorTol']
